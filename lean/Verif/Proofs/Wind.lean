import Verif.Spec.Wind
import Verif.Proofs.Exit
/-!
Winding down an expired market: pruning, settling, sweeping and closing never fail.
-/
namespace OB
open Spec

/-! ### lists of accounts -/

/-- Two lists of accounts with the same keys are mapped to the same list by functions that agree account by account. -/
theorem map_accts {γ : Type} {A B : Accts} (hk : B.map (·.1) = A.map (·.1)) (nd : (A.map (·.1)).Nodup) {f g : Pubkey × OOA → γ}
    (h : ∀ k a, A.get? k = some a → ∃ b, B.get? k = some b ∧ g (k, b) = f (k, a)) : B.map g = A.map f := by
  have ndB : (B.map (·.1)).Nodup := by rw [hk]; exact nd
  have key : ∀ (A' B' : Accts), B'.map (·.1) = A'.map (·.1) → (∀ x ∈ A', x ∈ A) → (∀ x ∈ B', x ∈ B) → B'.map g = A'.map f := by
    intro A'
    induction A' with
    | nil => intro B' h1 _ _; cases B' with
      | nil => rfl
      | cons y ys => cases h1
    | cons x xs ih =>
      intro B' h1 h2 h3
      cases B' with
      | nil => cases h1
      | cons y ys =>
        rw [List.map_cons, List.map_cons] at h1
        injection h1 with e1 e2
        rw [List.map_cons, List.map_cons, ih ys e2 (fun z hz => h2 z (List.mem_cons_of_mem _ hz)) (fun z hz => h3 z (List.mem_cons_of_mem _ hz))]
        congr 1
        obtain ⟨b, hb, e⟩ := h x.1 x.2 (acct_get nd (h2 x List.mem_cons_self))
        have hy := acct_get ndB (h3 y List.mem_cons_self)
        have e1 : y.1 = x.1 := e1
        rw [e1, hb] at hy
        injection hy with hy
        have : y = (x.1, b) := by rw [← e1, hy]
        rw [this, e]
  exact key A B hk (fun _ h => h) (fun _ h => h)

theorem nodup_keys {s : State} (hr : Reachable s) : (s.g.accts.map (·.1)).Nodup := by
  obtain ⟨O, q, hw⟩ := (reachable_Inv hr).core.linv
  exact hw.ginv.nodup

/-! ### pruning -/

structure Pruned (s s' : State) (ks : List Pubkey) : Prop where
  orders : ∀ x ∈ s'.book.resting, x ∈ s.book.resting ∧ x.2.2.owner ∉ ks
  keys : s'.g.accts.map (·.1) = s.g.accts.map (·.1)
  accts : ∀ k a, s.g.accts.get? k = some a → ∃ a', s'.g.accts.get? k = some a' ∧ a'.owner = a.owner ∧
    a'.position.penaltyHeapCount = a.position.penaltyHeapCount
  due : ∀ k, DueKept s s' k
  market : s'.g.market = s.g.market
  heap : s'.g.heap = s.g.heap
  tokens : s'.tokens = s.tokens
  lamports : s'.lamports = s.lamports
  closed : s'.closed = s.closed

theorem prune_one {s : State} (hr : Reachable s) (ho : s.closed = false) (hadm : s.g.market.closeMarketAdmin ≠ 0) {now : Int}
    (hx : s.g.market.isExpired now = true) {k : Pubkey} {a : OOA} (ha : s.g.accts.get? k = some a)
    (hl : a.position.bidsBaseLots + a.position.asksBaseLots < 2 ^ 63) :
    ∃ s' ls, step s (.pruneOrders s.g.market.closeMarketAdmin k now 255) = .ok s' ∧ Cancels s s' k ls ∧
      (∀ x ∈ s'.book.resting, x.2.2.owner ≠ k) ∧ s'.g.accts.map (·.1) = s.g.accts.map (·.1) := by
  have hi := reachable_Inv hr
  obtain ⟨q, s', h⟩ := cancelAllFor_ok (limit := 255) (so := none) (co := none) hi (reachable_Extra hr) ha
    (by have : i64Max = 2 ^ 63 - 1 := by decide
        omega)
  obtain ⟨ls, c1, c2, c3, c4, _⟩ := cancelAllFor_full hi (reachable_Extra hr) h
  refine ⟨s', ls, ?_, c1, fun x hx e => ?_, (cancelAllFor_frame hi h).2.1.keys⟩
  · simp only [step, pruneOrders, authClose, State.open?, bind_ok, req_ok, pure_ok]
    exact ⟨(), ⟨(), ho, (), hadm, trivial⟩, (), hx, (q, s'), h, rfl⟩
  · exact c4 (by omega) x hx ⟨e, fun _ h => (by cases h), fun _ h => (by cases h)⟩

theorem prune_all {ks : List Pubkey} {s : State} (hr : Reachable s) (ho : s.closed = false) (hadm : s.g.market.closeMarketAdmin ≠ 0) {now : Int}
    (hx : s.g.market.isExpired now = true) (nd : ks.Nodup)
    (hk : ∀ k ∈ ks, ∃ a, s.g.accts.get? k = some a ∧ a.position.bidsBaseLots + a.position.asksBaseLots < 2 ^ 63) :
    ∃ s', Runs s (ks.map (fun k => .pruneOrders s.g.market.closeMarketAdmin k now 255)) s' ∧ Pruned s s' ks := by
  induction ks generalizing s with
  | nil => exact ⟨s, .nil, fun x hx => ⟨hx, fun h => nomatch h⟩, rfl, fun k a ha => ⟨a, ha, rfl, rfl⟩, fun k => DueKept.refl s k, rfl, rfl, rfl,
      rfl, rfl⟩
  | cons k ks ih =>
    obtain ⟨a, ha, hl⟩ := hk k List.mem_cons_self
    obtain ⟨s1, ls, h1, c1, c2, c3⟩ := prune_one hr ho hadm hx ha hl
    have hr1 : Reachable s1 := .step _ _ _ hr h1
    obtain ⟨hn1, hn2⟩ := List.nodup_cons.mp nd
    obtain ⟨s', r1, P⟩ := ih hr1 (by rw [c1.closed]; exact ho) (by rw [c1.market]; exact hadm) (by rw [c1.market]; exact hx) hn2 (by
      intro j hj
      obtain ⟨b, hb, hlb⟩ := hk j (List.mem_cons_of_mem _ hj)
      exact ⟨b, by rw [c1.others j (fun e => hn1 (e ▸ hj))]; exact hb, hlb⟩)
    rw [c1.market] at r1
    refine ⟨s', .cons h1 r1, ?_, P.keys.trans c3, ?_, fun j => (c1.due (reachable_Inv hr1) j).trans (P.due j), P.market.trans c1.market,
      P.heap.trans c1.heap, P.tokens.trans c1.tokens, P.lamports.trans c1.lamports, P.closed.trans c1.closed⟩
    · intro x hx
      obtain ⟨e1, e2⟩ := P.orders x hx
      refine ⟨c1.book.mem_iff.mpr (List.mem_append_right _ e1), fun h => ?_⟩
      rcases List.mem_cons.mp h with e | h
      · exact c2 x e1 e
      · exact e2 h
    · intro j b hb
      have : ∃ b1, s1.g.accts.get? j = some b1 ∧ b1.owner = b.owner ∧ b1.position.penaltyHeapCount = b.position.penaltyHeapCount := by
        by_cases hj : j = k
        · subst hj
          obtain ⟨b0, b1, e1, e2, rel⟩ := c1.acct
          rw [hb] at e1; injection e1 with e1; subst e1
          exact ⟨b1, e2, rel.owner, rel.penalty⟩
        · exact ⟨b, by rw [c1.others j hj]; exact hb, rfl, rfl⟩
      obtain ⟨b1, e1, e2, e3⟩ := this
      obtain ⟨b2, f1, f2, f3⟩ := P.accts j b1 e1
      exact ⟨b2, f1, f2.trans e2, f3.trans e3⟩

/-! ### settling -/

def settleOp (admin : Pubkey) (w : Winding) (k : Pubkey) : Op :=
  .settleFundsExpired admin (settleTo admin w.payer k (w.base k) (w.quote k)) w.now

/-- What the accounts `xs` get. -/
def payouts (m : Market) (w : Winding) (xs : Accts) (t : Pubkey) : Int :=
  (xs.map (fun x => moved t m.marketBaseVault (w.base x.1) x.2.position.baseFreeNative +
    moved t m.marketQuoteVault (w.quote x.1) x.2.position.quoteFreeNative)).sum

structure WRoom (s : State) (w : Winding) (xs : Accts) : Prop where
  owners : ∀ x ∈ xs, x.2.owner ≠ s.g.market.marketAuthority
  owned : ∀ x ∈ xs, (s.tokens (w.base x.1)).owner = x.2.owner ∧ (s.tokens (w.quote x.1)).owner = x.2.owner
  mints : ∀ x ∈ xs, (s.tokens (w.base x.1)).mint = s.g.market.baseMint ∧ (s.tokens (w.quote x.1)).mint = s.g.market.quoteMint
  amounts : ∀ x ∈ xs, 0 ≤ tokens s (w.base x.1) ∧ 0 ≤ tokens s (w.quote x.1)
  room : ∀ x ∈ xs, tokens s (w.base x.1) + s.g.market.baseDepositTotal ≤ u64Max ∧
    tokens s (w.quote x.1) + s.g.market.quoteDepositTotal ≤ u64Max
  penalty : asum (fun a => a.position.penaltyHeapCount * 500) xs ≤ s.lamports w.payer ∧ 0 ≤ s.lamports s.marketKey ∧
    s.lamports s.marketKey + asum (fun a => a.position.penaltyHeapCount * 500) xs ≤ u64Max
  count : ∀ x ∈ xs, 0 ≤ x.2.position.penaltyHeapCount

structure SettledAll (s s' : State) (w : Winding) (xs : Accts) : Prop where
  done : ∀ x ∈ xs, s'.g.accts.get? x.1 = some (paidOut s.g.market x.2)
  others : ∀ j, j ∉ xs.map (·.1) → s'.g.accts.get? j = s.g.accts.get? j
  tokens : ∀ t, tokens s' t = tokens s t + payouts s.g.market w xs t
  owners : ∀ t, (s'.tokens t).owner = (s.tokens t).owner ∧ (s'.tokens t).mint = (s.tokens t).mint
  lamports : ∀ t, s'.lamports t = s.lamports t + moved t w.payer s.marketKey (asum (fun a => a.position.penaltyHeapCount * 500) xs)
  market : s'.g.market = { s.g.market with
    baseDepositTotal := s.g.market.baseDepositTotal - asum (fun a => a.position.baseFreeNative) xs
    quoteDepositTotal := s.g.market.quoteDepositTotal - asum (fun a => a.position.quoteFreeNative) xs
    feesAvailable := s'.g.market.feesAvailable
    referrerRebatesAccrued := s'.g.market.referrerRebatesAccrued }
  book : s'.book = s.book
  heap : s'.g.heap = s.g.heap
  closed : s'.closed = s.closed

theorem settle_one {s : State} (hr : Reachable s) (ho : s.closed = false) (hadm : s.g.market.closeMarketAdmin ≠ 0) {w : Winding}
    (hx : s.g.market.isExpired w.now = true) (hpay : w.payer ≠ s.g.market.marketAuthority)
    (hm : s.g.market.baseMint ≠ 0 ∧ s.g.market.quoteMint ≠ 0) {x : Pubkey × OOA} {xs : Accts}
    (ha : s.g.accts.get? x.1 = some x.2) (R1 : WRoom s w (x :: xs)) :
    ∃ s', step s (settleOp s.g.market.closeMarketAdmin w x.1) = .ok s' ∧
      Settles s s' (settleTo s.g.market.closeMarketAdmin w.payer x.1 (w.base x.1) (w.quote x.1)) x.2 := by
  have hmem : x ∈ x :: xs := List.mem_cons_self
  obtain ⟨f1, f2, f3⟩ := settle_room hr ha
  have hroom := R1.room x hmem
  have hpen := R1.penalty
  rw [asum, List.map_cons, List.sum_cons] at hpen
  have hnn : 0 ≤ (xs.map (fun y => y.2.position.penaltyHeapCount * 500)).sum := by
    have := R1.count
    clear hpen hroom R1 hmem ha
    induction xs with
    | nil => exact Int.le_refl _
    | cons y ys ih =>
      have h1 := this y (by simp)
      have h2 := ih (fun z hz => this z (by
        rcases List.mem_cons.mp hz with h | h
        · rw [h]; exact List.mem_cons_self
        · exact List.mem_cons_of_mem _ (List.mem_cons_of_mem _ h)))
      rw [List.map_cons, List.sum_cons]; omega
  obtain ⟨s', h⟩ := settleCore_ok (c := settleTo s.g.market.closeMarketAdmin w.payer x.1 (w.base x.1) (w.quote x.1)) hr ha hm
    (R1.mints x hmem).1 (R1.mints x hmem).2 (fun _ h => nomatch h) ⟨(R1.amounts x hmem).1, by
      have := hroom.1
      unfold tokens at this
      show (s.tokens (w.base x.1)).amount + _ ≤ _; omega⟩
    ⟨(R1.amounts x hmem).2, by
      have := hroom.2
      unfold tokens at this
      unfold rebateOf at f2
      rw [sweepOf_eq]
      show (s.tokens (w.quote x.1)).amount + _ + _ ≤ _; omega⟩ (fun _ h => nomatch h) (fun h => absurd rfl h)
    (.inr ⟨by show _ ≤ s.lamports w.payer; omega, hpen.2.1, by omega⟩)
  have h1 : step s (settleOp s.g.market.closeMarketAdmin w x.1) = .ok s' := by
    simp only [settleOp, step, settleFundsExpired, State.open?, signerOk, bind_ok, req_ok, Accts.get_ok]
    exact ⟨(), ho, (), hpay, (), hadm, (), trivial, x.2, ha, (), (R1.owned x hmem).1, (), (R1.owned x hmem).2, (), hx, h⟩
  refine ⟨s', h1, ?_⟩
  obtain ⟨b, hb, _⟩ := C26_settle_expired hr h1
  have e : b = x.2 := by have := hb.before; rw [show (settleTo s.g.market.closeMarketAdmin w.payer x.1 (w.base x.1) (w.quote x.1)).ooKey = x.1 from rfl, ha] at this; injection this with this; exact this.symm
  rw [← e]; exact hb

theorem paidOut_congr {m m' : Market} (h : m'.makerFee = m.makerFee) (a : OOA) : paidOut m' a = paidOut m a := by
  unfold paidOut feeRemainder; rw [h]

theorem settle_all {xs : Accts} {s : State} (hr : Reachable s) (ho : s.closed = false) (hadm : s.g.market.closeMarketAdmin ≠ 0) {w : Winding}
    (hx : s.g.market.isExpired w.now = true) (hpay : w.payer ≠ s.g.market.marketAuthority)
    (hm : s.g.market.baseMint ≠ 0 ∧ s.g.market.quoteMint ≠ 0) (nd : (xs.map (·.1)).Nodup)
    (ha : ∀ x ∈ xs, s.g.accts.get? x.1 = some x.2) (R1 : WRoom s w xs) :
    ∃ s', Runs s (xs.map (fun x => settleOp s.g.market.closeMarketAdmin w x.1)) s' ∧ SettledAll s s' w xs := by
  induction xs generalizing s with
  | nil =>
    refine ⟨s, .nil, (fun _ h => nomatch h), fun _ _ => rfl, fun t => ?_, fun t => ⟨rfl, rfl⟩, fun t => ?_, ?_, rfl, rfl, rfl⟩
    · show _ = _ + (0 : Int); omega
    · show _ = _ + moved t w.payer s.marketKey 0
      unfold moved; split <;> split <;> omega
    · show s.g.market = { s.g.market with baseDepositTotal := s.g.market.baseDepositTotal - 0, quoteDepositTotal := s.g.market.quoteDepositTotal - 0 }
      rw [Int.sub_zero, Int.sub_zero]
  | cons x xs ih =>
    have hmem : x ∈ x :: xs := List.mem_cons_self
    obtain ⟨hn1, hn2⟩ := List.nodup_cons.mp nd
    obtain ⟨s1, h1, S⟩ := settle_one hr ho hadm hx hpay hm (ha x hmem) R1
    have hr1 : Reachable s1 := .step _ _ _ hr h1
    have hM := S.market
    simp only [settleTo, if_true] at hM
    have hi := reachable_Inv hr
    have hmk : s1.marketKey = s.marketKey := step_marketKey hi h1
    obtain ⟨k1, k2, k3, k4, _⟩ := hi.core.linv.acctOk (ha x hmem)
    unfold inU64 at k1 k2
    have T : ∀ t, tokens s1 t = tokens s t + moved t s.g.market.marketBaseVault (w.base x.1) x.2.position.baseFreeNative +
      moved t s.g.market.marketQuoteVault (w.quote x.1) x.2.position.quoteFreeNative := by
      intro t
      have := S.tokens t
      simp only [settleTo, movedIf, Int.add_zero] at this
      exact this
    have hmint : s.g.market.baseMint ≠ s.g.market.quoteMint := reachable_mints hr
    -- destinations are no vaults
    have nv : ∀ y ∈ x :: xs, w.base y.1 ≠ s.g.market.marketBaseVault ∧ w.base y.1 ≠ s.g.market.marketQuoteVault ∧
        w.quote y.1 ≠ s.g.market.marketBaseVault ∧ w.quote y.1 ≠ s.g.market.marketQuoteVault := by
      intro y hy
      have o1 := R1.owned y hy
      have o2 := R1.owners y hy
      have v1 := hi.vb.owner
      have v2 := hi.vq.owner
      refine ⟨fun e => ?_, fun e => ?_, fun e => ?_, fun e => ?_⟩
      · rw [e] at o1; exact o2 (o1.1.symm.trans v1)
      · rw [e] at o1; exact o2 (o1.1.symm.trans v2)
      · rw [e] at o1; exact o2 (o1.2.symm.trans v1)
      · rw [e] at o1; exact o2 (o1.2.symm.trans v2)
    have nbq : ∀ y ∈ x :: xs, ∀ z ∈ x :: xs, w.base y.1 ≠ w.quote z.1 := by
      intro y hy z hz e
      have := (R1.mints y hy).1
      rw [e, (R1.mints z hz).2] at this
      exact hmint this.symm
    have R2 : WRoom s1 w xs := by
      have up : ∀ {y}, y ∈ xs → y ∈ x :: xs := fun h => List.mem_cons_of_mem _ h
      refine ⟨fun y hy => ?_, fun y hy => ?_, fun y hy => ?_, fun y hy => ?_, fun y hy => ?_, ?_, fun y hy => R1.count y (up hy)⟩
      · rw [hM]; exact R1.owners y (up hy)
      · rw [(S.owners _).1, (S.owners _).1]; exact R1.owned y (up hy)
      · rw [(S.owners _).2, (S.owners _).2, hM]; exact R1.mints y (up hy)
      · obtain ⟨n1, n2, n3, n4⟩ := nv y (up hy)
        have e1 := nbq y (up hy) x hmem
        have e2 := nbq x hmem y (up hy)
        have a0 := R1.amounts y (up hy)
        rw [T, T]
        unfold moved
        rw [if_neg n1, if_neg n2, if_neg n3, if_neg n4, if_neg e1, if_neg (Ne.symm e2)]
        constructor <;> split <;> omega
      · obtain ⟨n1, n2, n3, n4⟩ := nv y (up hy)
        have e1 := nbq y (up hy) x hmem
        have e2 := nbq x hmem y (up hy)
        have a0 := R1.room y (up hy)
        rw [T, T, hM]
        unfold moved
        rw [if_neg n1, if_neg n2, if_neg n3, if_neg n4, if_neg e1, if_neg (Ne.symm e2)]
        constructor <;> simp only <;> split <;> omega
      · have hp := R1.penalty
        have c0 := R1.count x hmem
        rw [asum, List.map_cons, List.sum_cons] at hp
        have l1 := S.lamports w.payer
        have l2 := S.lamports s.marketKey
        simp only [settleTo, moved, if_true] at l1 l2
        rw [hmk]
        unfold asum
        rw [l1, l2]
        by_cases e : w.payer = s.marketKey
        · simp only [e, if_true] at hp ⊢; omega
        · simp only [if_neg e, if_neg (Ne.symm e)]; omega
    have ea : s1.g.market.closeMarketAdmin = s.g.market.closeMarketAdmin := by rw [hM]
    obtain ⟨s', r1, A⟩ := ih hr1 (by rw [S.closed]; exact ho) (by rw [ea]; exact hadm) (by rw [hM]; exact hx) (by rw [hM]; exact hpay)
      (by rw [hM]; exact hm) hn2 (fun y hy => by
        rw [S.others y.1 (fun e => hn1 (List.mem_map.mpr ⟨y, hy, e⟩))]
        exact ha y (List.mem_cons_of_mem _ hy)) R2
    rw [ea] at r1
    have mf : s1.g.market.makerFee = s.g.market.makerFee := by rw [hM]
    refine ⟨s', .cons h1 r1, ?_, ?_, ?_, fun t => ⟨(A.owners t).1.trans (S.owners t).1, (A.owners t).2.trans (S.owners t).2⟩, ?_, ?_, A.book.trans S.book,
      A.heap.trans S.heap, A.closed.trans S.closed⟩
    · intro y hy
      rcases List.mem_cons.mp hy with rfl | hy
      · rw [A.others _ hn1]; exact S.after
      · rw [A.done y hy, paidOut_congr mf]
    · intro j hj
      rw [List.map_cons, List.mem_cons, not_or] at hj
      rw [A.others j hj.2]; exact S.others j hj.1
    · intro t
      rw [A.tokens, T]
      unfold payouts
      rw [List.map_cons, List.sum_cons, hM]
      simp only; omega
    · intro t
      rw [A.lamports, S.lamports, hmk]
      unfold asum
      rw [List.map_cons, List.sum_cons]
      unfold moved settleTo
      simp only
      split <;> split <;> omega
    · rw [A.market, hM]
      unfold asum
      simp only [List.map_cons, List.sum_cons]
      congr 1 <;> omega

/-! ### sweeping and closing -/

/-- Without orders and events, what the accounts hold makes up the deposits. -/
theorem idle_totals {s : State} (hi : Inv s) (hb : s.book.resting = []) (he : s.g.heap.events = []) :
    s.g.market.baseDepositTotal = asum (acctB s.g.market) s.g.accts ∧
    s.g.market.quoteDepositTotal = asum (acctQ s.g.market) s.g.accts + s.g.market.feesAvailable ∧
    s.g.market.referrerRebatesAccrued = asum acctR s.g.accts := by
  obtain ⟨O, q, hl⟩ := hi.core.linv
  have hO : O = [] := by
    have hk := hl.kinds
    have hq : q = [] := by
      have : q.map (·.2) = [] := by rw [← hl.heap.events]; exact he
      exact List.map_eq_nil_iff.mp this
    rw [hb, hq] at hk
    have := hk.length_eq
    simp [restKs, evKs] at this
    exact this
  have hB := hl.ginv.base
  have hQ := hl.ginv.quote
  rw [hO, osum_nil] at hB hQ
  exact ⟨by omega, by omega, hl.ginv.refs⟩

theorem asum_all_zero {f : OOA → Int} {as : Accts} (h : ∀ x ∈ as, f x.2 = 0) : asum f as = 0 := by
  unfold asum
  induction as with
  | nil => rfl
  | cons x xs ih =>
    rw [List.map_cons, List.sum_cons, h x List.mem_cons_self, ih (fun y hy => h y (List.mem_cons_of_mem _ hy))]; rfl

theorem isEmpty_of_resting {book : Book} (hb : BookOk book) (h : book.resting = []) :
    book.bids.isEmpty = .ok true ∧ book.asks.isEmpty = .ok true := by
  obtain ⟨o1, k1⟩ := hb.ok .bid
  obtain ⟨o2, k2⟩ := hb.ok .ask
  have k1 : BSOk book.bids o1 := k1
  have k2 : BSOk book.asks o2 := k2
  unfold Book.resting at h
  rw [k1.orders, k1.orders, k2.orders, k2.orders] at h
  simp only [List.append_eq_nil_iff, List.map_eq_nil_iff] at h
  rw [bs_isEmpty k1, bs_isEmpty k2]
  obtain ⟨⟨⟨h1, h2⟩, h3⟩, h4⟩ := h
  exact ⟨by rw [decide_eq_true ⟨h1, h2⟩], by rw [decide_eq_true ⟨h3, h4⟩]⟩

/-- A market without orders and events whose accounts hold nothing can be swept and closed. -/
theorem sweep_close {s : State} (hr : Reachable s) (ho : s.closed = false) (hadm : s.g.market.closeMarketAdmin ≠ 0) {now : Int}
    (hx : s.g.market.isExpired now = true) (hm : s.g.market.quoteMint ≠ 0) (hb : s.book.resting = []) (he : s.g.heap.events = [])
    (hn : ∀ x ∈ s.g.accts, HoldsNothing x.2) {recv : Pubkey} (hrm : (s.tokens recv).mint = s.g.market.quoteMint)
    (hr0 : 0 ≤ tokens s recv) (hr1 : tokens s recv + s.g.market.quoteDepositTotal ≤ u64Max) :
    s.g.market.baseDepositTotal = 0 ∧
    ∃ s', Runs s [.sweepFees s.g.market.collectFeeAdmin recv, .closeMarket s.g.market.closeMarketAdmin now] s' ∧ s'.closed = true ∧
      (∀ t, tokens s' t = tokens s t + moved t s.g.market.marketQuoteVault recv s.g.market.quoteDepositTotal) ∧
      s'.g.accts = s.g.accts ∧ s'.lamports = s.lamports := by
  have hi := reachable_Inv hr
  obtain ⟨t1, t2, t3⟩ := idle_totals hi hb he
  have z1 : asum (acctB s.g.market) s.g.accts = 0 := asum_all_zero (fun x hx => by
    have := hn x hx
    unfold acctB; rw [this.freeBase, this.asks]; omega)
  have z2 : asum (acctQ s.g.market) s.g.accts = 0 := asum_all_zero (fun x hx => by
    have := hn x hx
    unfold acctQ; rw [this.freeQuote, this.bids.2, this.fees, this.rebates]; omega)
  have z3 : asum acctR s.g.accts = 0 := asum_all_zero (fun x hx => (hn x hx).rebates)
  refine ⟨by omega, ?_⟩
  have v := hi.vq
  have v0 := v.total
  unfold inU64 at v0
  have hf : s.g.market.feesAvailable = s.g.market.quoteDepositTotal := by omega
  obtain ⟨t', ht⟩ := tokenTransfer_ok (t := s.tokens) (amt := s.g.market.feesAvailable) (src := s.g.market.marketQuoteVault) (dst := recv)
    (auth := s.g.market.marketAuthority) (by rw [hf]; exact v.le) (by rw [v.mint, hrm]) v.owner hr0 (by rw [hf]; exact hr1)
  have h1 : step s (.sweepFees s.g.market.collectFeeAdmin recv) = .ok { s with tokens := t', g := { s.g with market := { s.g.market with
      feesAvailable := 0, quoteDepositTotal := s.g.market.quoteDepositTotal - s.g.market.feesAvailable } } } := by
    simp only [step, sweepFees, State.open?, mintIs, bind_ok, req_ok, pure_ok, ckU64_ok]
    exact ⟨(), ho, (), trivial, (), ⟨by rw [hrm, v.mint], by rw [hrm]; exact hm⟩, _, ⟨by omega, rfl⟩, t', ht, rfl⟩
  obtain ⟨b1, b2⟩ := isEmpty_of_resting hi.core.bookOk hb
  have hheap : s.g.heap.isEmpty = true := by
    obtain ⟨O, q, hw⟩ := hi.core.linv
    have c := hw.heap.count
    have hq : q = [] := by
      have : q.map (·.2) = [] := by rw [← hw.heap.events]; exact he
      exact List.map_eq_nil_iff.mp this
    rw [hq] at c
    unfold EventHeap.isEmpty
    exact decide_eq_true c
  have h2 : step { s with tokens := t', g := { s.g with market := { s.g.market with
      feesAvailable := 0, quoteDepositTotal := s.g.market.quoteDepositTotal - s.g.market.feesAvailable } } }
      (.closeMarket s.g.market.closeMarketAdmin now) = .ok { s with closed := true, tokens := t', g := { s.g with market := { s.g.market with
      feesAvailable := 0, quoteDepositTotal := s.g.market.quoteDepositTotal - s.g.market.feesAvailable } } } := by
    simp only [step, closeMarket, authClose, State.open?, bind_ok, req_ok, pure_ok]
    refine ⟨(), ⟨(), ho, (), hadm, trivial⟩, (), hx, (), ?_, true, b1, true, b2, (), ⟨rfl, rfl⟩, (), hheap, trivial⟩
    unfold Market.isEmpty
    simp only [decide_eq_true_eq]
    exact ⟨by omega, by omega, trivial, by omega⟩
  refine ⟨_, .cons h1 (.one h2), rfl, ?_, rfl, rfl⟩
  · intro t
    have := (tokenTransfer_spec ht (by omega) t).2.2
    unfold tokens moved
    show (t' t).amount = _
    rw [this, hf]; omega

theorem event_qty {s : State} (hi : Inv s) {e : Event} (he : e ∈ s.g.heap.events) : 0 ≤ eventQuantity e := by
  obtain ⟨O, q, hw⟩ := hi.core.linv
  obtain ⟨o, ho, hk⟩ := hw.mem_ev he
  have := (hw.ginv.ok o ho).qty
  cases e with
  | fill f => cases o <;> cases hk; exact Int.le_trans (by omega) this
  | out ev => cases o <;> cases hk; exact Int.le_trans (by omega) this

theorem total_nonneg {es : List Event} {f : Event → Int} (h : ∀ e ∈ es, 0 ≤ f e) : 0 ≤ total es f := by
  induction es with
  | nil => exact Int.le_refl _
  | cons e es ih =>
    have h1 := h e List.mem_cons_self
    have h2 := ih (fun x hx => h x (List.mem_cons_of_mem _ hx))
    unfold total at h2 ⊢
    rw [List.map_cons, List.sum_cons]; omega

theorem payouts_le {m : Market} {w : Winding} {xs : Accts} {t : Pubkey} (h1 : t ≠ m.marketBaseVault) (h2 : t ≠ m.marketQuoteVault)
    (h3 : ∀ x ∈ xs, t ≠ w.base x.1) (h4 : ∀ x ∈ xs, 0 ≤ x.2.position.quoteFreeNative) :
    0 ≤ payouts m w xs t ∧ payouts m w xs t ≤ asum (fun a => a.position.quoteFreeNative) xs := by
  unfold payouts asum
  induction xs with
  | nil => exact ⟨Int.le_refl _, Int.le_refl _⟩
  | cons x xs ih =>
    obtain ⟨i1, i2⟩ := ih (fun y hy => h3 y (List.mem_cons_of_mem _ hy)) (fun y hy => h4 y (List.mem_cons_of_mem _ hy))
    have h3 := h3 x List.mem_cons_self
    have h4 := h4 x List.mem_cons_self
    rw [List.map_cons, List.sum_cons, List.map_cons, List.sum_cons]
    have : moved t m.marketBaseVault (w.base x.1) x.2.position.baseFreeNative = 0 := by
      unfold moved; rw [if_neg h1, if_neg h3]; rfl
    rw [this]
    have : 0 ≤ moved t m.marketQuoteVault (w.quote x.1) x.2.position.quoteFreeNative ∧
        moved t m.marketQuoteVault (w.quote x.1) x.2.position.quoteFreeNative ≤ x.2.position.quoteFreeNative := by
      unfold moved; rw [if_neg h2]; split <;> omega
    simp only at i2 ⊢
    omega

end OB
