import Verif.Proofs.Stake
import Verif.Proofs.MarketStep
import Verif.Props.C58_Wealth
import Mathlib.Data.List.Dedup
/-!
What an account and a group of accounts have on the books, along an instruction.
-/
namespace OB
open Spec

/-! ### calls of the engine -/

def callsG (cs : List (Env × OrderResult)) (k : Pubkey) : Int := (cs.map (fun x => callG x.1 x.2 k)).sum

theorem Spec.Calls.gross {book book' : Book} {g g' : Ledger} {cs : List (Env × OrderResult)} (h : Calls book g cs book' g') :
    Gross g.market g g' (tradesOf cs) (callsG cs) := by
  induction h with
  | nil => exact Gross.refl _ _
  | cons env r cs book book1 book' g g1 g' h hs ih =>
    obtain ⟨C⟩ := callRun h
    rw [tradesOf_cons]
    exact (C.gross.trans (ih.lots C.lots)).ext (fun k => by simp [callsG])

/-- Quote that a trade is worth to its taker, with the rebate it pays. -/
def takerWorth (m : Market) (f : FillEvent) : Int := takerQuote m f - fillRebate m f

theorem takerWorth_neg (m : Market) (f : FillEvent) : takerWorth m f = -makerWorth m f := by
  unfold takerWorth makerWorth takerQuote
  have hts : f.takerSide = .bid ∨ f.takerSide = .ask := by cases f.takerSide <;> simp
  rcases hts with hts | hts <;> simp only [hts, reduceCtorEq, if_true, if_false] <;> omega

theorem takerBase_neg (m : Market) (f : FillEvent) : takerBase m f = -makerBase m f := by
  unfold takerBase makerBase
  have hts : f.takerSide = .bid ∨ f.takerSide = .ask := by cases f.takerSide <;> simp
  rcases hts with hts | hts <;> simp only [hts, reduceCtorEq, if_true, if_false] <;> omega

theorem SameLots.takerWorth {m m' : Market} (h : SameLots m m') : takerWorth m = takerWorth m' := by
  funext f; simp [OB.takerWorth, h.takerQuote, h.fillRebate]

theorem sumFills_sub (fs : List FillEvent) (v w : FillEvent → Int) : sumFills fs (fun f => v f - w f) = sumFills fs v - sumFills fs w := by
  unfold sumFills
  induction fs with
  | nil => rfl
  | cons f fs ih => simp only [List.map_cons, List.sum_cons, ih]; omega

theorem CallRun.netG {env : Env} {book book' : Book} {g g' : Ledger} {r : OrderResult} (C : CallRun env book g r book' g')
    (ho : env.hasOO = true) :
    callG env r env.owner - (if env.order.side = .bid then
        r.totalQuoteTakenNative + r.postedQuoteNative + r.takerFees + r.makerFees else 0) =
      sumFills r.fills (takerWorth g.market) := by
  have h1 := (C.net ho).2
  have h2 := C.fee_split.1
  have h3 : sumFills r.fills (takerWorth g.market) = sumFills r.fills (takerQuote g.market) - sumFills r.fills (fillRebate g.market) :=
    sumFills_sub _ _ _
  unfold sumFills at h3
  unfold callQ at h1
  unfold callG
  unfold sumFills at h1 ⊢
  simp only [ho, and_self, if_true] at h1 ⊢
  rw [h3]
  cases hs : env.order.side <;> simp [hs] at h1 ⊢ <;> omega

theorem Spec.Calls.netG {book book' : Book} {g g' : Ledger} {cs : List (Env × OrderResult)} (h : Calls book g cs book' g') {k : Pubkey}
    (ho : ∀ x ∈ cs, x.1.owner = k ∧ x.1.hasOO = true) :
    callsG cs k - chargedQuote cs = sumFills (tradesOf cs) (takerWorth g.market) := by
  induction h with
  | nil => rfl
  | cons env r cs book book1 book' g g1 g' h hs ih =>
    obtain ⟨C⟩ := callRun h
    have h1 := ih (fun x hx => ho x (List.mem_cons_of_mem _ hx))
    obtain ⟨h3, h4⟩ := ho (env, r) (by simp)
    simp only at h3 h4
    have h5 := C.netG h4
    rw [h3] at h5
    rw [C.lots.takerWorth] at h1
    rw [tradesOf_cons, sumFills_append]
    unfold callsG chargedQuote at *
    simp only [List.map_cons, List.sum_cons]
    omega

theorem callsG_nobody {cs : List (Env × OrderResult)} {k : Pubkey} (hj : ∀ x ∈ cs, ¬ (k = x.1.owner ∧ x.1.hasOO = true)) :
    callsG cs k = 0 := by
  unfold callsG
  induction cs with
  | nil => rfl
  | cons x cs ih =>
    simp only [List.map_cons, List.sum_cons, ih (fun y hy => hj y (List.mem_cons_of_mem _ hy))]
    unfold callG
    rw [if_neg (hj x (by simp))]; rfl

/-- Only existing accounts are makers. -/
theorem CallRun.makers {env : Env} {book book' : Book} {g g' : Ledger} {r : OrderResult} (C : CallRun env book g r book' g')
    {f : FillEvent} (hf : f ∈ r.fills) : ∃ a, g.accts.get? f.maker = some a := by
  obtain ⟨v, _, _, hi⟩ := C.fill_visit hf
  obtain ⟨O, q, hw⟩ := C.core.linv
  obtain ⟨oo, hm⟩ := hw.mem_rest hi.resting
  obtain ⟨a, ha⟩ := hw.ginv.owner _ hm
  exact ⟨a, by rw [hi.maker.1]; exact ha⟩

theorem Spec.Calls.makers {book book' : Book} {g g' : Ledger} {cs : List (Env × OrderResult)} (h : Calls book g cs book' g')
    {f : FillEvent} (hf : f ∈ tradesOf cs) : ∃ a, g.accts.get? f.maker = some a := by
  induction h with
  | nil => cases hf
  | cons env r cs book book1 book' g g1 g' h hs ih =>
    obtain ⟨C⟩ := callRun h
    rw [tradesOf_cons] at hf
    rcases List.mem_append.mp hf with hf | hf
    · exact C.makers hf
    · obtain ⟨a, ha⟩ := ih hf
      cases hn : g.accts.get? f.maker with
      | some a => exact ⟨a, rfl⟩
      | none => rw [C.P.frame.get?_none hn] at ha; cases ha

/-! ### one account -/

/-- Account `k` stays, and what it has on the books changes by `x` quote. -/
def StMoves (s s' : State) (k : Pubkey) (x : Int) : Prop :=
  ∀ a, s.g.accts.get? k = some a → ∃ a', s'.g.accts.get? k = some a' ∧ stakeQuote s' k a' = stakeQuote s k a + x

theorem StMoves.refl (s : State) (k : Pubkey) : StMoves s s k 0 := fun a ha => ⟨a, ha, by omega⟩

theorem st_same {s s' : State} {k : Pubkey} (ha : s'.g.accts.get? k = s.g.accts.get? k)
    (he : eventsOf s' k = eventsOf s k) (hm : SameLots s'.g.market s.g.market) : StMoves s s' k 0 := by
  intro a h
  refine ⟨a, by rw [ha]; exact h, ?_⟩
  unfold stakeQuote
  rw [he, hm.queuedWorth, hm.quote]; omega

theorem Spec.Released.acctQs {m : Market} {ls : List (Side × Comp × LeafNode)} {a a' : OOA} (h : Released m ls a a') :
    OB.acctQ m a' = OB.acctQ m a := by
  have h1 := h.quote; have h2 := h.bidsQuote; have h3 := h.fees; have h4 := h.rebates
  have key : sumOver ls (fun s c l => heldQuote m s c l + heldFee m s c l) =
      sumOver ls (fun s c l => if s = .bid then l.quantity * lockedAt c l else 0) * m.quoteLotSize + sumOver ls (heldFee m) := by
    clear h h1 h2 h3 h4
    induction ls with
    | nil => simp [sumOver_nil]
    | cons x ls ih =>
      obtain ⟨s, c, l⟩ := x
      simp only [sumOver_cons, ih, Int.add_mul]
      by_cases hs : s = .bid
      · simp only [hs, if_true, heldQuote, heldFee, bidValue]; omega
      · simp only [hs, if_false, heldQuote, heldFee, Int.zero_mul]; omega
  unfold OB.acctQ
  rw [h1, h2, h3, h4, Int.sub_mul]
  omega

theorem Spec.Cancels.stake {s s' : State} {k : Pubkey} {ls : List (Side × Comp × LeafNode)} (h : Cancels s s' k ls) (j : Pubkey) :
    StMoves s s' j 0 := by
  have hm : SameLots s'.g.market s.g.market := by rw [h.market]; exact ⟨rfl, rfl, rfl⟩
  have hev : eventsOf s' j = eventsOf s j := by unfold eventsOf; rw [h.heap]
  by_cases hj : j = k
  · subst hj
    intro a ha
    obtain ⟨b, a', e1, e2, r⟩ := h.acct
    rw [ha] at e1; injection e1 with e1; subst e1
    refine ⟨a', e2, ?_⟩
    have := r.acctQs
    unfold OB.acctQ at this
    unfold stakeQuote
    rw [hev, hm.queuedWorth, hm.quote]; omega
  · exact st_same (h.others j hj) hev hm

theorem Spec.Delivered.stake {s s' : State} {es : List Event} (h : Delivered s s' es)
    (he : s.g.heap.events.Perm (es ++ s'.g.heap.events)) (k : Pubkey) : StMoves s s' k 0 := by
  intro a ha
  obtain ⟨a', ha', cr⟩ := h.accts k a ha
  have hm : SameLots s'.g.market s.g.market := by rw [h.market]; exact ⟨rfl, rfl, rfl⟩
  have hp : (eventsOf s k).Perm (es.filter (fun e => eventAccount e = k) ++ eventsOf s' k) := by
    have := he.filter (fun e => decide (eventAccount e = k))
    rw [List.filter_append] at this
    exact this
  have tot : ∀ f : Event → Int, total (eventsOf s k) f = total (es.filter (fun e => eventAccount e = k)) f + total (eventsOf s' k) f := by
    intro f
    rw [total_perm hp]
    simp [total]
  refine ⟨a', ha', ?_⟩
  have := cr.acctQ
  unfold OB.acctQ at this
  unfold stakeQuote
  rw [hm.queuedWorth, hm.quote, tot]; omega

theorem Spec.Placement.stake {s s1 s' : State} {p : Placer} {cs : List (Env × OrderResult)} {g1 : Ledger} (h : Placement s s1 s' p cs g1)
    (hr : Reachable s) (hm : SameLots s'.g.market s.g.market) (k : Pubkey) :
    StMoves s s' k (sumMaker (tradesOf cs) k (makerWorth s.g.market) +
      (if k = p.owner ∧ p.hasOO = true then sumFills (tradesOf cs) (takerWorth s.g.market) +
        (tokens s' s.g.market.marketQuoteVault - tokens s s.g.market.marketQuoteVault) else 0)) := by
  intro a ha
  have hs1 : StMoves s s1 k 0 ∧ s1.g.market = s.g.market := by
    rcases h.first hr with e | ⟨_, hr1, _, ls, hc⟩
    · rw [e]; exact ⟨StMoves.refl _ _, rfl⟩
    · exact ⟨hc.stake k, hc.market⟩
  obtain ⟨a1, ha1, d1⟩ := hs1.1 a ha
  have hg := h.calls.gross
  rw [hs1.2] at hg
  obtain ⟨a2, ha2, e1⟩ := hg k a1 ha1
  rw [stakeQuote_st s1, hs1.2] at d1
  by_cases hk : k = p.owner ∧ p.hasOO = true
  · obtain ⟨b, b', hb, hb', _, _, _, p3, _, p5⟩ := h.pays.account hk.2
    have hrest := h.pays.rest hk.2 b b' hb hb'
    rw [← hk.1] at hb hb'
    rw [ha2] at hb; injection hb with hb; subst hb
    have n2 := h.calls.netG (k := k) (fun x hx => by
      obtain ⟨c1, c2, _⟩ := h.ctx x hx
      exact ⟨by rw [c1, hk.1], by rw [c2, hk.2]⟩)
    rw [hs1.2] at n2
    refine ⟨b', hb', ?_⟩
    rw [if_pos hk, stakeQuote_st, hm.stQ]
    have q1 : b'.position.bidsQuoteLots = a2.position.bidsQuoteLots := by rw [hrest]
    have q2 : b'.position.lockedMakerFees = a2.position.lockedMakerFees := by rw [hrest]
    have q3 : b'.position.referrerRebatesAvailable = a2.position.referrerRebatesAvailable := by rw [hrest]
    unfold stQ OB.acctQ at e1 d1 ⊢
    rw [h.heap, p3, p5, q1, q2, q3]
    unfold stakeQuote at d1 ⊢
    omega
  · have hk' : p.hasOO = false ∨ k ≠ p.owner := by
      by_cases hc : k = p.owner
      · left; cases hv : p.hasOO with
        | false => rfl
        | true => exact absurd ⟨hc, hv⟩ hk
      · exact .inr hc
    have z := callsG_nobody (cs := cs) (k := k) (fun x hx c => by
      obtain ⟨c1, c2, _⟩ := h.ctx x hx
      rw [c1, c2] at c
      exact hk c)
    refine ⟨a2, by rw [h.pays.others k hk']; exact ha2, ?_⟩
    rw [if_neg hk, stakeQuote_st, hm.stQ]
    rw [z] at e1
    unfold stQ at e1 d1 ⊢
    rw [h.heap]
    unfold stQ at *
    omega

/-- An instruction that neither places orders nor moves funds of the account leaves what it has on the books. -/
theorem stake_kept {s s' : State} {op : Op} (hr : Reachable s) (h : step s op = .ok s') (hp : placer op = none) {k : Pubkey}
    (hk : fundsAccount op ≠ some k) : StMoves s s' k 0 := by
  have hi := reachable_Inv hr
  have hst := h
  cases step_run h with
  | idle _ c hop _ _ => cases op <;> simp [Op.placeCtx] at hop <;> simp [placer] at hp
  | place _ c o limit r hop P => cases hop <;> cases hp
  | edit _ c client e o limit r hop P => cases hop <;> cases hp
  | multi => cases hp
  | take => cases hp
  | consume _ admin limit slots rem hop h =>
    rcases hop with ⟨rfl, rfl⟩ | ⟨rfl, rfl⟩
    · exact (consumeEvents_front hi h).2.stake (consume_perm hi h) k
    · simp only [step, consumeGivenEvents, bind_ok, req_ok] at hst
      obtain ⟨_, hlt, hst⟩ := hst
      obtain ⟨_, _, _, _, _, _, _, h7, h8⟩ := consumeEvents_given hi (by simpa using hlt) hst
      exact h8.stake h7 k
  | cancelOne signer j id h =>
    obtain ⟨x, _, hc, _⟩ := cancelOrderIx_full hi h
    exact hc.stake k
  | cancel _ signer j limit so co a q hop auth h =>
    obtain ⟨ls, hc, _⟩ := cancelAllFor_full hi (reachable_Extra hr) h
    exact hc.stake k
  | prune admin j now limit q auth exp h1 =>
    obtain ⟨ls, hc, _⟩ := cancelAllFor_full hi (reachable_Extra hr) h1
    exact hc.stake k
  | deposit _ signer j ub uq now b q b0 q0 hop P =>
    have hj : k ≠ j := fun e => hk (by rcases hop with rfl | rfl <;> rw [e] <;> rfl)
    obtain ⟨_, hA, b0, q0, _, _, a, hk, _, t1, tr1, t2, tr2, _, _, _, _, rfl⟩ := P
    exact st_same (by simp [Accts.get?_set, hj]) rfl ⟨rfl, rfl, rfl⟩
  | settle c h P =>
    have hS := P.spec hr
    exact st_same (hS.others k (fun e => hk (by rw [e]; rfl))) (by unfold eventsOf; rw [hS.heap]) (by rw [hS.market]; exact ⟨rfl, rfl, rfl⟩)
  | settleExpired admin c now h P =>
    have hS := P.spec hr
    exact st_same (hS.others k (fun e => hk (by rw [e]; rfl))) (by unfold eventsOf; rw [hS.heap]) (by rw [hS.market]; exact ⟨rfl, rfl, rfl⟩)
  | sweep admin receiver h =>
    obtain ⟨_, _, _, t, _, rfl⟩ := sweepFees_inv h
    exact st_same rfl rfl ⟨rfl, rfl, rfl⟩
  | setExpired admin now auth live res => rw [res]; exact st_same rfl rfl ⟨rfl, rfl, rfl⟩
  | close admin now P => rw [P.res]; exact st_same rfl rfl ⟨rfl, rfl, rfl⟩
  | createOO j owner d isOpen own new res =>
    rw [res]
    intro a ha
    refine ⟨a, ?_, by simp only [Int.add_zero]; rfl⟩
    show Accts.get? (s.g.accts ++ _) k = some a
    rw [Accts.get?_append, ha]; rfl
  | closeOO j owner a acct own empty res =>
    obtain ⟨O, q, hw⟩ := hi.core.linv
    have hj : k ≠ j := fun e => hk (by rw [e]; rfl)
    rw [res]
    exact st_same (by simp only; rw [Accts.get?_del hw.ginv.nodup, if_neg hj]) rfl ⟨rfl, rfl, rfl⟩
  | delegate j owner d a acct own res =>
    rw [res]
    by_cases hj : k = j
    · subst hj
      intro a0 ha0
      rw [acct] at ha0; injection ha0 with e; subst e
      exact ⟨{ a with delegate := d }, Accts.get?_set_self _ acct, by simp only [Int.add_zero]; rfl⟩
    · exact st_same (by simp only; rw [Accts.get?_set_ne _ hj]) rfl ⟨rfl, rfl, rfl⟩
  | token j t le vault res => rw [res]; exact st_same rfl rfl ⟨rfl, rfl, rfl⟩
  | lamports j x le mkt res => rw [res]; exact st_same rfl rfl ⟨rfl, rfl, rfl⟩

/-! ### every address -/

def baseAt (s : State) (k : Pubkey) : Int :=
  match s.g.accts.get? k with
  | some a => dueBase s k a
  | none => 0
def stakeAt (s : State) (k : Pubkey) : Int :=
  match s.g.accts.get? k with
  | some a => stakeQuote s k a
  | none => 0

theorem baseAt_some {s : State} {k : Pubkey} {a : OOA} (h : s.g.accts.get? k = some a) : baseAt s k = dueBase s k a := by
  unfold baseAt; rw [h]
theorem baseAt_none {s : State} {k : Pubkey} (h : s.g.accts.get? k = none) : baseAt s k = 0 := by unfold baseAt; rw [h]
theorem stakeAt_some {s : State} {k : Pubkey} {a : OOA} (h : s.g.accts.get? k = some a) : stakeAt s k = stakeQuote s k a := by
  unfold stakeAt; rw [h]
theorem stakeAt_none {s : State} {k : Pubkey} (h : s.g.accts.get? k = none) : stakeAt s k = 0 := by unfold stakeAt; rw [h]

/-- What an instruction adds for account `k`, in terms of its trades. -/
def addB (s : State) (op : Op) (s' : State) (ts : List FillEvent) (k : Pubkey) : Int :=
  sumMaker ts k (makerBase s.g.market) + if actsFor op = some k then sumFills ts (takerBase s.g.market) +
    (tokens s' s.g.market.marketBaseVault - tokens s s.g.market.marketBaseVault) else 0
def addQ (s : State) (op : Op) (s' : State) (ts : List FillEvent) (k : Pubkey) : Int :=
  sumMaker ts k (makerWorth s.g.market) + if actsFor op = some k then sumFills ts (takerWorth s.g.market) +
    (tokens s' s.g.market.marketQuoteVault - tokens s s.g.market.marketQuoteVault -
      (s'.g.market.feesAvailable - s.g.market.feesAvailable)) else 0

/-- At most, and exactly unless `x`. -/
def Upto (x : Prop) (a b : Int) : Prop := a ≤ b ∧ (¬ x → a = b)

theorem Upto.eq {x : Prop} {a b : Int} (h : a = b) : Upto x a b := ⟨by omega, fun _ => h⟩

theorem sumMaker_zero {fs : List FillEvent} {k : Pubkey} (h : ∀ f ∈ fs, f.maker ≠ k) (v : FillEvent → Int) : sumMaker fs k v = 0 := by
  unfold sumMaker
  rw [List.filter_eq_nil_iff.mpr (fun f hm hc => h f hm (of_decide_eq_true hc))]
  rfl

theorem placer_funds {op : Op} {p : Placer} (hp : placer op = some p) : ∀ k o d, op ≠ .createOO k o d := by
  intro k o d e
  rw [e] at hp; cases hp

theorem SettleRun.add {s s' : State} {c : SettleCtx} {op : Op} (P : SettleRun s c s') (hr : Reachable s)
    (hx : intoVault s op ↔ c.userBase = s.g.market.marketBaseVault ∨ c.userQuote = s.g.market.marketQuoteVault ∨
      c.referrer = some s.g.market.marketQuoteVault)
    (ha : actsFor op = some c.ooKey) :
    Upto (intoVault s op) (baseAt s' c.ooKey) (baseAt s c.ooKey + addB s op s' [] c.ooKey) ∧
    Upto (intoVault s op) (stakeAt s' c.ooKey) (stakeAt s c.ooKey + addQ s op s' [] c.ooKey) := by
  have hi := reachable_Inv hr
  have hS := P.spec hr
  have hmint := reachable_mints hr
  have n1 : c.userQuote ≠ s.g.market.marketBaseVault := fun e => by
    have := hS.mints.2.1; rw [e, hi.vb.mint] at this; exact hmint this
  have n2 : c.userBase ≠ s.g.market.marketQuoteVault := fun e => by
    have := hS.mints.1; rw [e, hi.vq.mint] at this; exact hmint this.symm
  have n3 : c.referrer ≠ some s.g.market.marketBaseVault := fun e => by
    have := hS.mints.2.2 _ e; rw [hi.vb.mint] at this; exact hmint this
  have hne := hi.vaults
  obtain ⟨O, q, hw⟩ := hi.core.linv
  have hok := hw.ginv.acct _ _ hS.before
  have f0 : 0 ≤ P.a.position.baseFreeNative := hok.baseFree.1
  have f1 : 0 ≤ P.a.position.quoteFreeNative := hok.quoteFree.1
  have hd := due_free (b := -P.a.position.baseFreeNative) (q := -P.a.position.quoteFreeNative) hS.before hS.after rfl rfl
    (by show (0 : Int) = _; omega) (by show (0 : Int) = _; omega) hS.book hS.heap (by rw [hS.market]; exact ⟨rfl, rfl, rfl⟩)
  obtain ⟨a', e1, _, e2, _⟩ := hd _ hS.before
  rw [hS.after] at e1; injection e1 with e1; subst e1
  have t1 := hS.tokens s.g.market.marketBaseVault
  have t2 := hS.tokens s.g.market.marketQuoteVault
  have f2 : 0 ≤ rebateOf s.g.market P.a := by
    have := hok.locked.1
    have := hok.refs.1
    unfold rebateOf feeRemainder
    split <;> omega
  have n4 : movedIf s.g.market.marketBaseVault s.g.market.marketQuoteVault c.referrer (rebateOf s.g.market P.a) = 0 := by
    unfold movedIf
    cases hc : c.referrer with
    | none => rfl
    | some r =>
      simp only
      unfold moved
      rw [if_neg (fun e => n3 (by rw [hc, e])), if_neg hne]; rfl
  have n5 : movedIf s.g.market.marketQuoteVault s.g.market.marketQuoteVault c.referrer (rebateOf s.g.market P.a) =
      (if c.referrer = none then 0 else -rebateOf s.g.market P.a) +
        (if c.referrer = some s.g.market.marketQuoteVault then rebateOf s.g.market P.a else 0) := by
    unfold movedIf
    cases hc : c.referrer with
    | none => simp
    | some r =>
      simp only [reduceCtorEq, if_false, Option.some.injEq]
      unfold moved
      rw [if_pos rfl]
      by_cases hq : s.g.market.marketQuoteVault = r
      · rw [if_pos hq, if_pos hq.symm]; omega
      · rw [if_neg hq, if_neg (Ne.symm hq)]; omega
  rw [n4] at t1
  rw [n5] at t2
  unfold moved at t1 t2
  rw [if_neg hne, if_neg (Ne.symm n1)] at t1
  rw [if_neg (Ne.symm hne), if_neg (Ne.symm n2)] at t2
  simp only [if_true] at t1 t2
  have hfee : s'.g.market.feesAvailable = s.g.market.feesAvailable + (if c.referrer = none then rebateOf s.g.market P.a else 0) := by
    rw [hS.market]
  rw [baseAt_some hS.before, baseAt_some hS.after, stakeAt_some hS.before, stakeAt_some hS.after]
  have hst : stakeQuote s' c.ooKey (paidOut s.g.market P.a) =
      stakeQuote s c.ooKey P.a - P.a.position.quoteFreeNative - rebateOf s.g.market P.a := by
    have hev : eventsOf s' c.ooKey = eventsOf s c.ooKey := by unfold eventsOf; rw [hS.heap]
    have hm : SameLots s'.g.market s.g.market := by rw [hS.market]; exact ⟨rfl, rfl, rfl⟩
    unfold stakeQuote paidOut rebateOf
    rw [hev, hm.queuedWorth, hm.quote]
    simp only
    omega
  unfold addB addQ
  rw [if_pos ha, if_pos ha]
  simp only [sumMaker_nil, sumFills_nil]
  constructor
  · refine ⟨?_, fun hn => ?_⟩
    · rw [e2]
      split at t1 <;> omega
    · rw [hx] at hn
      rw [if_neg (fun e => hn (.inl e.symm))] at t1
      omega
  · rw [hst, hfee]
    refine ⟨?_, fun hn => ?_⟩
    · by_cases u1 : c.referrer = none
      · have u2 : c.referrer ≠ some s.g.market.marketQuoteVault := by rw [u1]; exact fun h => nomatch h
        rw [if_pos u1, if_neg u2] at t2
        rw [if_pos u1]
        split at t2 <;> omega
      · rw [if_neg u1] at t2 ⊢
        split at t2 <;> split at t2 <;> omega
    · rw [hx] at hn
      rw [if_neg (fun e => hn (.inr (.inl e.symm))), if_neg (fun e => hn (.inr (.inr e)))] at t2
      by_cases u1 : c.referrer = none
      · rw [if_pos u1] at t2 ⊢; omega
      · rw [if_neg u1] at t2 ⊢; omega

/-- Addresses without an account have no orders and no events. -/
theorem no_account {s : State} (hi : Inv s) {k : Pubkey} (hk : s.g.accts.get? k = none) : ordersOf s k = [] ∧ eventsOf s k = [] := by
  obtain ⟨O, q, hw⟩ := hi.core.linv
  have hno : ∀ o ∈ O, o.acct ≠ k := fun o ho e => by
    obtain ⟨a, ha⟩ := hw.ginv.owner o ho
    rw [e, hk] at ha; cases ha
  refine ⟨?_, ?_⟩
  · refine List.filter_eq_nil_iff.mpr (fun x hx hc => ?_)
    obtain ⟨oo, hm⟩ := hw.mem_rest hx
    exact hno _ hm (of_decide_eq_true hc)
  · refine List.filter_eq_nil_iff.mpr (fun x hx hc => ?_)
    obtain ⟨o, hm, e⟩ := hw.mem_ev hx
    refine hno _ hm ?_
    rw [decide_eq_true_eq] at hc
    cases o with
    | rest s c l oo => cases e
    | out ev oo => injection e with e; rw [← e] at hc; exact hc
    | fill f oo => injection e with e; rw [← e] at hc; exact hc

theorem placed_makers {s s1 s' : State} {p : Placer} {cs : List (Env × OrderResult)} {g1 : Ledger} (h : Placement s s1 s' p cs g1)
    (hr : Reachable s) {f : FillEvent} (hf : f ∈ tradesOf cs) : ∃ a, s.g.accts.get? f.maker = some a := by
  obtain ⟨a, ha⟩ := h.calls.makers hf
  rcases h.first hr with e | ⟨_, _, _, ls, hc⟩
  · rw [← e]; exact ⟨a, ha⟩
  · by_cases hk : f.maker = p.owner
    · obtain ⟨b, _, hb, _⟩ := hc.acct
      exact ⟨b, by rw [hk]; exact hb⟩
    · exact ⟨a, by rw [← hc.others _ hk]; exact ha⟩

theorem trades_makers {s s' : State} {op : Op} {ts : List FillEvent} (hr : Reachable s) (ht : TradesIn s op s' ts) {f : FillEvent}
    (hf : f ∈ ts) : ∃ a, s.g.accts.get? f.maker = some a := by
  unfold TradesIn at ht
  cases hp : placer op with
  | some p =>
    rw [hp] at ht
    obtain ⟨s1, cs, g1, P, _, rfl⟩ := ht
    exact placed_makers P hr hf
  | none => rw [hp] at ht; simp only at ht; rw [ht] at hf; cases hf

/-- What an instruction does to the books at every address. -/
theorem step_adds {s s' : State} {op : Op} {ts : List FillEvent} (hr : Reachable s) (h : step s op = .ok s') (ht : TradesIn s op s' ts)
    (k : Pubkey) :
    Upto (intoVault s op) (baseAt s' k) (baseAt s k + addB s op s' ts k) ∧
    Upto (intoVault s op) (stakeAt s' k) (stakeAt s k + addQ s op s' ts k) := by
  have hi := reachable_Inv hr
  have hi' : Inv s' := reachable_Inv (.step _ _ _ hr h)
  have hacc := step_accts hi h
  have hmk : ∀ f ∈ ts, ∃ a, s.g.accts.get? f.maker = some a := fun f hf => trades_makers hr ht hf
  have hm := (step_cfg hi h).1.lots
  cases hp : placer op with
  | some p =>
    have ht' := ht
    unfold TradesIn at ht'
    rw [hp] at ht'
    obtain ⟨s1, cs, g1, P, _, rfl⟩ := ht'
    have hact : actsFor op = if p.hasOO then some p.owner else none := by unfold actsFor; rw [hp]
    have hiff : actsFor op = some k ↔ k = p.owner ∧ p.hasOO = true := by
      rw [hact]
      cases p.hasOO
      · simp
      · simp only [if_true, Option.some.injEq, and_true]; exact eq_comm
    have hav : s'.g.market.feesAvailable = s.g.market.feesAvailable := by
      cases step_mkt hi h with
      | trade avail _ _ _ => exact avail
      | settled c a hop _ _ => rcases hop with e | ⟨_, _, e⟩ <;> rw [e] at hp <;> cases hp
      | swept r hop _ => rw [hop] at hp; cases hp
    cases hk : s.g.accts.get? k with
    | some a =>
      obtain ⟨a', loss, g1, _, _, g2, _⟩ := P.due hr hm k a hk
      obtain ⟨a'', g3, g4⟩ := P.stake hr hm k a hk
      rw [g1] at g3; injection g3 with g3; subst g3
      rw [baseAt_some hk, baseAt_some g1, stakeAt_some hk, stakeAt_some g1]
      unfold addB addQ
      simp only [hiff, hav]
      refine ⟨.eq (by omega), .eq ?_⟩
      rw [g4]
      split <;> omega
    | none =>
      have hk' : s'.g.accts.get? k = none := by
        cases hk' : s'.g.accts.get? k with
        | none => rfl
        | some a' =>
          obtain ⟨o, d, e, _⟩ := hacc.new k a' hk hk'
          exact absurd e (placer_funds hp k o d)
      have hz : ∀ v, sumMaker (tradesOf cs) k v = 0 := sumMaker_zero (fun f hf e => by
        obtain ⟨a, ha⟩ := hmk f hf
        rw [e, hk] at ha; cases ha)
      have hn : ¬ (actsFor op = some k) := fun e => by
        obtain ⟨e1, e2⟩ := hiff.mp e
        obtain ⟨a, ha, _⟩ := P.auth e2
        rw [← e1, hk] at ha; cases ha
      rw [baseAt_none hk, baseAt_none hk', stakeAt_none hk, stakeAt_none hk']
      unfold addB addQ
      rw [hz, hz, if_neg hn, if_neg hn]
      exact ⟨.eq rfl, .eq rfl⟩
  | none =>
    have hts : ts = [] := by unfold TradesIn at ht; rw [hp] at ht; exact ht
    subst hts
    have hact : actsFor op = fundsAccount op := by unfold actsFor; rw [hp]
    by_cases hf : fundsAccount op = some k
    · cases step_run h with
      | deposit _ signer j ub uq now b q b0 q0 hop P =>
        have hj : j = k := by rcases hop with rfl | rfl <;> exact Option.some.inj hf
        subst hj
        obtain ⟨d1, d2, d3, _⟩ := P.due hi
        obtain ⟨a', e1, _, e2, _⟩ := d1 _ P.acct
        have hst : stakeAt s' j = stakeAt s j + q := by
          have h1 : s'.g.accts.get? j = some { P.a with position := { P.a.position with
              baseFreeNative := P.a.position.baseFreeNative + b, quoteFreeNative := P.a.position.quoteFreeNative + q } } := by
            rw [congrArg State.g P.res]; exact Accts.get?_set_self _ P.acct
          have hev : eventsOf s' j = eventsOf s j := by unfold eventsOf; rw [congrArg State.g P.res]
          rw [stakeAt_some h1, stakeAt_some P.acct]
          unfold stakeQuote
          rw [hev, hm.queuedWorth, hm.quote]
          simp only
          omega
        have hav : s'.g.market.feesAvailable = s.g.market.feesAvailable := by rw [congrArg State.g P.res]
        rw [hst, baseAt_some P.acct, baseAt_some e1, e2]
        unfold addB addQ
        rw [if_pos (hact.trans hf), if_pos (hact.trans hf), hav]
        simp only [sumMaker_nil, sumFills_nil]
        exact ⟨.eq (by omega), .eq (by omega)⟩
      | settle c _ P =>
        have hj : c.ooKey = k := Option.some.inj hf
        subst hj
        exact P.add hr Iff.rfl (hact.trans hf)
      | settleExpired _ c _ _ P =>
        have hj : c.ooKey = k := Option.some.inj hf
        subst hj
        exact P.add hr Iff.rfl (hact.trans hf)
      | closeOO j owner a acct own empty res =>
        have hj : j = k := Option.some.inj hf
        subst hj
        obtain ⟨O, q, hw⟩ := hi.core.linv
        obtain ⟨h1, h2, h3, _⟩ := empty.due hi acct
        have hn : s'.g.accts.get? j = none := by rw [res]; simp only; rw [Accts.get?_del hw.ginv.nodup, if_pos rfl]
        have h4 : stakeQuote s j a = 0 := by
          unfold stakeQuote
          rw [h2, empty.quote, empty.bidsQ, empty.fees, empty.refs]; simp [total]
        rw [baseAt_none hn, stakeAt_none hn, baseAt_some acct, stakeAt_some acct, h3, h4]
        unfold addB addQ
        rw [if_pos (hact.trans hf), if_pos (hact.trans hf)]
        simp only [sumMaker_nil, sumFills_nil]
        rw [res]
        unfold tokens
        exact ⟨.eq (by simp), .eq (by simp)⟩
      | idle _ c hop _ _ => cases op <;> simp [Op.placeCtx] at hop <;> simp [placer] at hp
      | place _ c o limit r hop P => cases hop <;> cases hp
      | edit _ c client e o limit r hop P => cases hop <;> cases hp
      | consume _ admin limit slots rem hop h => rcases hop with ⟨rfl, _⟩ | ⟨rfl, _⟩ <;> cases hf
      | cancel _ signer j limit so co a q hop auth h => rcases hop with ⟨rfl, _⟩ | ⟨rfl, _⟩ <;> cases hf
      | _ => cases hf
    · have hz : addB s op s' [] k = 0 ∧ addQ s op s' [] k = 0 := by
        unfold addB addQ
        rw [hact, if_neg hf, if_neg hf]
        exact ⟨rfl, rfl⟩
      rw [hz.1, hz.2]
      cases hk : s.g.accts.get? k with
      | some a =>
        obtain ⟨a', e1, _, e2, _⟩ := C58_kept hr h hp hf a hk
        obtain ⟨a'', e3, e4⟩ := stake_kept hr h hp hf a hk
        rw [e1] at e3; injection e3 with e3; subst e3
        rw [baseAt_some hk, baseAt_some e1, stakeAt_some hk, stakeAt_some e1]
        exact ⟨.eq (by omega), .eq (by omega)⟩
      | none =>
        rw [baseAt_none hk, stakeAt_none hk]
        cases hk' : s'.g.accts.get? k with
        | none => rw [baseAt_none hk', stakeAt_none hk']; exact ⟨.eq rfl, .eq rfl⟩
        | some a' =>
          obtain ⟨o, d, e, rfl⟩ := hacc.new k a' hk hk'
          subst e
          have hs' : s'.book = s.book ∧ s'.g.heap = s.g.heap := by
            cases step_run h with
            | createOO j owner d isOpen own new res => rw [res]; exact ⟨rfl, rfl⟩
            | idle _ c hop _ _ => cases hop
            | place _ c o limit r hop P => cases hop
            | edit _ c client e o limit r hop P => cases hop
            | consume _ admin limit slots rem hop h => rcases hop with ⟨e, _⟩ | ⟨e, _⟩ <;> cases e
            | cancel _ signer j limit so co a q hop auth h => rcases hop with ⟨e, _⟩ | ⟨e, _⟩ <;> cases e
            | deposit _ signer j ub uq now b q b0 q0 hop P => rcases hop with e | e <;> cases e
          obtain ⟨z1, z2⟩ := no_account hi hk
          have z1' : ordersOf s' k = [] := by unfold ordersOf at z1 ⊢; rw [hs'.1]; exact z1
          have z2' : eventsOf s' k = [] := by unfold eventsOf at z2 ⊢; rw [hs'.2]; exact z2
          rw [baseAt_some hk', stakeAt_some hk']
          refine ⟨.eq ?_, .eq ?_⟩
          · unfold dueBase; rw [z1', z2']; rfl
          · unfold stakeQuote; rw [z2']
            show (0 : Int) + 0 * _ + 0 + 0 + 0 = 0 + 0
            simp

/-! ### sums over a group -/

theorem sum_indicator {U : List Pubkey} (hU : U.Nodup) (K : Pubkey → Bool) {k0 : Pubkey} (hk : k0 ∈ U) (y : Int) :
    ((U.filter K).map (fun k => if k = k0 then y else 0)).sum = if K k0 then y else 0 := by
  induction U with
  | nil => cases hk
  | cons u U ih =>
    obtain ⟨hu, hU⟩ := List.nodup_cons.mp hU
    have hzero : ∀ (V : List Pubkey), k0 ∉ V → ((V.filter K).map (fun k => if k = k0 then y else (0 : Int))).sum = 0 := by
      intro V hV
      induction V with
      | nil => rfl
      | cons v V ihV =>
        have h1 : v ≠ k0 := fun e => hV (by rw [e]; exact List.mem_cons_self ..)
        have h2 := ihV (fun hm => hV (List.mem_cons_of_mem _ hm))
        rw [List.filter_cons]
        split
        · rw [List.map_cons, List.sum_cons, h2, if_neg h1]; rfl
        · exact h2
    rw [List.filter_cons]
    by_cases e : u = k0
    · subst e
      have := hzero U hu
      by_cases hK : K u = true
      · rw [if_pos hK, if_pos hK, List.map_cons, List.sum_cons, this, if_pos rfl]; omega
      · rw [if_neg hK, if_neg hK, this]
    · have hm : k0 ∈ U := by
        rcases List.mem_cons.mp hk with h | h
        · exact absurd h.symm e
        · exact h
      have := ih hU hm
      split
      · rw [List.map_cons, List.sum_cons, this, if_neg e]; omega
      · exact this

theorem sum_add {U : List Pubkey} (f g : Pubkey → Int) : (U.map (fun k => f k + g k)).sum = (U.map f).sum + (U.map g).sum := by
  induction U with
  | nil => rfl
  | cons u U ih => simp only [List.map_cons, List.sum_cons, ih]; omega

theorem sum_upto {U : List Pubkey} {x : Prop} {f g : Pubkey → Int} (h : ∀ k, Upto x (f k) (g k)) : Upto x (U.map f).sum (U.map g).sum := by
  induction U with
  | nil => exact .eq rfl
  | cons u U ih =>
    simp only [List.map_cons, List.sum_cons]
    obtain ⟨h1, h2⟩ := h u
    obtain ⟨h3, h4⟩ := ih
    exact ⟨by omega, fun hn => by rw [h2 hn, h4 hn]⟩

/-- A sum over the accounts of a group as a sum over any list of addresses that has them all. -/
theorem group_sum {U : List Pubkey} (hU : U.Nodup) (K : Pubkey → Bool) (v : Pubkey → OOA → Int) :
    ∀ (A : Accts), (A.map (·.1)).Nodup → (∀ x ∈ A, x.1 ∈ U) →
      ((A.filter (fun x => K x.1)).map (fun x => v x.1 x.2)).sum =
        ((U.filter K).map (fun k => match A.get? k with | some a => v k a | none => 0)).sum
  | [], _, _ => by
    have : ∀ V : List Pubkey, (V.map (fun k => match Accts.get? [] k with | some a => v k a | none => 0)).sum = 0 := by
      intro V
      induction V with
      | nil => rfl
      | cons u V ih =>
        rw [List.map_cons, List.sum_cons, ih]; rfl
    rw [this]; rfl
  | (k0, a0) :: A, hA, hm => by
    rw [List.map_cons, List.nodup_cons] at hA
    have ih := group_sum hU K v A hA.2 (fun x hx => hm x (List.mem_cons_of_mem _ hx))
    have hn : Accts.get? A k0 = none := by
      cases h : Accts.get? A k0 with
      | none => rfl
      | some a => exact absurd ((Accts.isSome_get? (as := A) (k := k0)).mp (by rw [h]; rfl)) hA.1
    have hfun : (fun k => match Accts.get? ((k0, a0) :: A) k with | some a => v k a | none => (0 : Int)) =
        fun k => (match Accts.get? A k with | some a => v k a | none => 0) + if k = k0 then v k0 a0 else 0 := by
      funext k
      rw [Accts.get?_cons]
      by_cases e : k = k0
      · subst e
        rw [if_pos rfl, if_pos rfl, hn]; simp only; omega
      · rw [if_neg (Ne.symm e), if_neg e]; omega
    rw [hfun, sum_add, ← ih, sum_indicator hU K (hm (k0, a0) (by simp)), List.filter_cons]
    simp only
    split
    · rw [List.map_cons, List.sum_cons]; simp only; omega
    · omega

theorem makers_sum {U : List Pubkey} (hU : U.Nodup) (K : Pubkey → Bool) (w : FillEvent → Int) :
    ∀ (fs : List FillEvent), (∀ f ∈ fs, f.maker ∈ U) →
      ((U.filter K).map (fun k => sumMaker fs k w)).sum = sumFills (fs.filter (fun f => K f.maker)) w
  | [], _ => by
    have : ∀ V : List Pubkey, (V.map (fun k => sumMaker [] k w)).sum = 0 := by
      intro V
      induction V with
      | nil => rfl
      | cons u V ih => rw [List.map_cons, List.sum_cons, ih]; rfl
    rw [this]; rfl
  | f :: fs, hm => by
    have ih := makers_sum hU K w fs (fun x hx => hm x (List.mem_cons_of_mem _ hx))
    have hfun : (fun k => sumMaker (f :: fs) k w) = fun k => sumMaker fs k w + if k = f.maker then w f else 0 := by
      funext k
      unfold sumMaker
      rw [List.filter_cons]
      by_cases e : k = f.maker
      · subst e; simp; omega
      · rw [if_neg e, if_neg (by simpa using Ne.symm e)]; omega
    rw [hfun, sum_add, ih, sum_indicator hU K (hm f (by simp)), List.filter_cons]
    unfold sumFills
    split
    · rw [List.map_cons, List.sum_cons]; omega
    · omega

theorem sumFills_neg (fs : List FillEvent) (v : FillEvent → Int) : sumFills fs (fun f => -v f) = -sumFills fs v := by
  unfold sumFills
  induction fs with
  | nil => rfl
  | cons f fs ih => simp only [List.map_cons, List.sum_cons, ih]; omega

theorem sumFills_split (fs : List FillEvent) (q : FillEvent → Bool) (v : FillEvent → Int) :
    sumFills fs v = sumFills (fs.filter q) v + sumFills (fs.filter (fun f => !q f)) v := by
  unfold sumFills
  induction fs with
  | nil => rfl
  | cons f fs ih =>
    rw [List.filter_cons, List.filter_cons]
    cases q f <;> simp <;> omega

/-- Trades within the group cancel out. -/
theorem inside_cancels (K : Pubkey → Bool) (op : Op) (ts : List FillEvent) (v w : FillEvent → Int) (hv : ∀ f, v f = -w f) (x : Int)
    {U : List Pubkey} (hU : U.Nodup) (hact : ∀ k, actsFor op = some k → k ∈ U) :
    sumFills (ts.filter (fun f => K f.maker)) w +
      ((U.filter K).map (fun k => if actsFor op = some k then sumFills ts v + x else 0)).sum =
    sumFills (ts.filter (crosses K (byGroup K op))) (fun f => if byGroup K op then v f else w f) + if byGroup K op then x else 0 := by
  have hvw : v = fun f => -w f := funext hv
  cases ha : actsFor op with
  | none =>
    have hb : byGroup K op = false := by unfold byGroup; rw [ha]
    have hz : ∀ V : List Pubkey, (V.map (fun k => if (none : Option Pubkey) = some k then sumFills ts v + x else 0)).sum = 0 := by
      intro V
      induction V with
      | nil => rfl
      | cons u V ih => rw [List.map_cons, List.sum_cons, ih]; simp
    have hc : crosses K false = fun f => K f.maker := by funext f; unfold crosses; cases K f.maker <;> rfl
    rw [hz, hb, hc]; simp
  | some k0 =>
    have hb : byGroup K op = K k0 := by unfold byGroup; rw [ha]
    have hfun : (fun k => if some k0 = some k then sumFills ts v + x else 0) = fun k => if k = k0 then sumFills ts v + x else 0 := by
      funext k
      by_cases e : k = k0
      · rw [if_pos e, if_pos (by rw [e])]
      · rw [if_neg e, if_neg (fun h => e (Option.some.inj h).symm)]
    rw [hfun, sum_indicator hU K (hact k0 ha), hb]
    cases hK : K k0 with
    | false =>
      have hc : crosses K false = fun f => K f.maker := by funext f; unfold crosses; cases K f.maker <;> rfl
      rw [hc]; simp
    | true =>
      have hc : crosses K true = fun f => !K f.maker := by funext f; unfold crosses; cases K f.maker <;> rfl
      rw [hc]
      simp only [if_true]
      have h1 := sumFills_split ts (fun f => K f.maker) v
      have h2 : sumFills (ts.filter (fun f => K f.maker)) v = -sumFills (ts.filter (fun f => K f.maker)) w := by
        rw [hvw]; exact sumFills_neg _ _
      show _ + (_ + x) = sumFills (ts.filter (fun f => !K f.maker)) v + x
      omega

theorem keys_once {s : State} (hi : Inv s) : (s.g.accts.map (·.1)).Nodup := by
  obtain ⟨O, q, hw⟩ := hi.core.linv
  exact hw.ginv.nodup

/-- One instruction, for a group. -/
theorem step_group {s s' : State} {op : Op} {ts : List FillEvent} (hr : Reachable s) (h : step s op = .ok s') (ht : TradesIn s op s' ts)
    (K : Pubkey → Bool) :
    Upto (intoVault s op) (groupBase K s') (groupBase K s + broughtBase K ⟨s, op, s', ts⟩ + wonBase K ⟨s, op, s', ts⟩) ∧
    Upto (intoVault s op) (groupQuote K s') (groupQuote K s + broughtQuote K ⟨s, op, s', ts⟩ + wonQuote K ⟨s, op, s', ts⟩) := by
  have hi := reachable_Inv hr
  have hi' : Inv s' := reachable_Inv (.step _ _ _ hr h)
  let U := (s.g.accts.map (·.1) ++ s'.g.accts.map (·.1) ++ (actsFor op).toList).dedup
  have hU : U.Nodup := List.nodup_dedup _
  have u1 : ∀ x ∈ s.g.accts, x.1 ∈ U := fun x hx => List.mem_dedup.mpr
    (List.mem_append_left _ (List.mem_append_left _ (List.mem_map_of_mem hx)))
  have u2 : ∀ x ∈ s'.g.accts, x.1 ∈ U := fun x hx => List.mem_dedup.mpr
    (List.mem_append_left _ (List.mem_append_right _ (List.mem_map_of_mem hx)))
  have u3 : ∀ k, actsFor op = some k → k ∈ U := fun k hk => List.mem_dedup.mpr
    (List.mem_append_right _ (by rw [hk]; simp))
  have u4 : ∀ f ∈ ts, f.maker ∈ U := fun f hf => by
    obtain ⟨a, ha⟩ := trades_makers hr ht hf
    have := (Accts.isSome_get? (as := s.g.accts) (k := f.maker)).mp (by rw [ha]; rfl)
    exact List.mem_dedup.mpr (List.mem_append_left _ (List.mem_append_left _ this))
  have b0 : groupBase K s = ((U.filter K).map (baseAt s)).sum := group_sum hU K (dueBase s) _ (keys_once hi) u1
  have b1 : groupBase K s' = ((U.filter K).map (baseAt s')).sum := group_sum hU K (dueBase s') _ (keys_once hi') u2
  have q0 : groupQuote K s = ((U.filter K).map (stakeAt s)).sum := group_sum hU K (stakeQuote s) _ (keys_once hi) u1
  have q1 : groupQuote K s' = ((U.filter K).map (stakeAt s')).sum := group_sum hU K (stakeQuote s') _ (keys_once hi') u2
  have hB := sum_upto (U := U.filter K) (fun k => (step_adds hr h ht k).1)
  have hQ := sum_upto (U := U.filter K) (fun k => (step_adds hr h ht k).2)
  have cB := inside_cancels K op ts (takerBase s.g.market) (makerBase s.g.market) (takerBase_neg _)
    (tokens s' s.g.market.marketBaseVault - tokens s s.g.market.marketBaseVault) hU u3
  have cQ := inside_cancels K op ts (takerWorth s.g.market) (makerWorth s.g.market) (takerWorth_neg _)
    (tokens s' s.g.market.marketQuoteVault - tokens s s.g.market.marketQuoteVault -
      (s'.g.market.feesAvailable - s.g.market.feesAvailable)) hU u3
  have eB : ((U.filter K).map (fun k => baseAt s k + addB s op s' ts k)).sum =
      groupBase K s + broughtBase K ⟨s, op, s', ts⟩ + wonBase K ⟨s, op, s', ts⟩ := by
    rw [sum_add, ← b0]
    unfold addB
    rw [sum_add, makers_sum hU K _ ts u4, cB]
    unfold broughtBase wonBase
    simp only
    omega
  have eQ : ((U.filter K).map (fun k => stakeAt s k + addQ s op s' ts k)).sum =
      groupQuote K s + broughtQuote K ⟨s, op, s', ts⟩ + wonQuote K ⟨s, op, s', ts⟩ := by
    rw [sum_add, ← q0]
    unfold addQ
    rw [sum_add, makers_sum hU K _ ts u4, cQ]
    unfold broughtQuote wonQuote takerWorth
    simp only
    omega
  rw [eB, ← b1] at hB
  rw [eQ, ← q1] at hQ
  exact ⟨hB, hQ⟩

end OB
