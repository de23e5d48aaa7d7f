import Verif.Proofs.Split
import Verif.Proofs.Bridge
import Verif.Proofs.BookEv
import Verif.Proofs.Penalty
import Verif.Spec.OneByOne
/-! A batch of orders compared with the same orders placed one at a time (C87). -/
namespace OB
open Spec

def Gap.zero : Gap := ⟨0, 0, 0, 0, 0⟩

theorem OOA.gap_zero (a : OOA) : a.gap .zero = a := by
  simp [OOA.gap, Gap.zero]

theorem Accts.gap_zero (k : Pubkey) (as : Accts) : as.gap k .zero = as := by
  unfold Accts.gap
  simp only [OOA.gap_zero, ite_self, Prod.mk.eta, List.map_id']

theorem Ledger.gap_zero (k : Pubkey) (g : Ledger) : g.gap k .zero = g := by
  unfold Ledger.gap
  rw [Accts.gap_zero]
  simp [Market.gap, Gap.zero]

/-- Setting the account to another difference. -/
theorem Accts.gap_reset {k : Pubkey} {d d' : Gap} {as : Accts} {a : OOA} (nd : (as.map (·.1)).Nodup) (ha : as.get? k = some a) :
    (as.gap k d).set k (a.gap d') = as.gap k d' := by
  induction as with
  | nil => cases ha
  | cons x xs ih =>
    rw [List.map_cons, List.nodup_cons] at nd
    rw [Accts.get?_cons] at ha
    unfold Accts.gap at ih ⊢
    by_cases hx : x.1 = k
    · rw [if_pos hx] at ha
      injection ha with ha
      subst ha
      have hr : ∀ y ∈ xs, y.1 ≠ k := fun y hy e => nd.1 (by rw [hx, ← e]; exact List.mem_map_of_mem hy)
      simp only [List.map_cons, if_pos hx, Accts.set]
      refine congrArg₂ List.cons (by rw [hx]) ?_
      refine List.map_congr_left fun y hy => ?_
      rw [if_neg (hr y hy), if_neg (hr y hy)]
    · rw [if_neg hx] at ha
      simp only [List.map_cons, if_neg hx, Accts.set]
      rw [ih nd.2 ha]

def Gap.moreBase (d : Gap) (free dep : Int) : Gap := { d with base := d.base + free, depBase := d.depBase + dep }
def Gap.moreQuote (d : Gap) (free dep : Int) : Gap := { d with quote := d.quote + free, depQuote := d.depQuote + dep }
def Gap.morePen (d : Gap) (n : Int) : Gap := { d with pen := d.pen + n }

section
variable {g : Ledger} {k : Pubkey} {a : OOA} (d : Gap)

theorem gap_acct (ha : g.accts.get? k = some a) : (g.gap k d).accts.get? k = some (a.gap d) := by
  show (g.accts.gap k d).get? k = _
  rw [Accts.gap_get?, ha]; simp

theorem locked_base (nd : (g.accts.map (·.1)).Nodup) (ha : g.accts.get? k = some a) (x y : Int) :
    { (g.gap k d) with
      market := { (g.gap k d).market with baseDepositTotal := (g.gap k d).market.baseDepositTotal + y }
      accts := (g.gap k d).accts.set k ((a.gap d).withBase ((a.gap d).position.baseFreeNative - x)) } = g.gap k (d.moreBase x y) := by
  have e : (a.gap d).withBase ((a.gap d).position.baseFreeNative - x) = a.gap (d.moreBase x y) := by
    simp only [OOA.withBase, OOA.gap, Gap.moreBase, Int.sub_sub]
  rw [e]
  show (⟨_, _, (g.accts.gap k d).set k _⟩ : Ledger) = _
  rw [Accts.gap_reset nd ha]
  simp only [Ledger.gap, Market.gap, Gap.moreBase, Int.add_assoc]

theorem locked_quote (nd : (g.accts.map (·.1)).Nodup) (ha : g.accts.get? k = some a) (x y : Int) :
    { (g.gap k d) with
      market := { (g.gap k d).market with quoteDepositTotal := (g.gap k d).market.quoteDepositTotal + y }
      accts := (g.gap k d).accts.set k ((a.gap d).withQuote ((a.gap d).position.quoteFreeNative - x)) } = g.gap k (d.moreQuote x y) := by
  have e : (a.gap d).withQuote ((a.gap d).position.quoteFreeNative - x) = a.gap (d.moreQuote x y) := by
    simp only [OOA.withQuote, OOA.gap, Gap.moreQuote, Int.sub_sub]
  rw [e]
  show (⟨_, _, (g.accts.gap k d).set k _⟩ : Ledger) = _
  rw [Accts.gap_reset nd ha]
  simp only [Ledger.gap, Market.gap, Gap.moreQuote, Int.add_assoc]

theorem added_penalty (nd : (g.accts.map (·.1)).Nodup) (ha : g.accts.get? k = some a) :
    { (g.gap k d) with accts := (g.gap k d).accts.set k ((a.gap d).withPenalty ((a.gap d).position.penaltyHeapCount + 1)) } =
      g.gap k (d.morePen 1) := by
  have e : (a.gap d).withPenalty ((a.gap d).position.penaltyHeapCount + 1) = a.gap (d.morePen 1) := by
    simp only [OOA.withPenalty, OOA.gap, Gap.morePen, Int.add_assoc]
  rw [e]
  show (⟨_, _, (g.accts.gap k d).set k _⟩ : Ledger) = _
  rw [Accts.gap_reset nd ha]
  rfl

theorem lockAsk_gap (nd : (g.accts.map (·.1)).Nodup) (ha : g.accts.get? k = some a) {amt : Int} (h0 : 0 ≤ amt) (h1 : amt ≤ u64Max)
    (hf : d.base ≤ a.position.baseFreeNative) (hf1 : a.position.baseFreeNative - d.base ≤ u64Max)
    (ht : 0 ≤ g.market.baseDepositTotal + d.depBase)
    (hfit : g.market.baseDepositTotal + d.depBase + (amt - min amt (a.position.baseFreeNative - d.base)) ≤ u64Max) :
    lockAsk (g.gap k d) k amt =
      .ok (g.gap k (d.moreBase (min amt (a.position.baseFreeNative - d.base)) (amt - min amt (a.position.baseFreeNative - d.base))),
        amt - min amt (a.position.baseFreeNative - d.base)) := by
  unfold lockAsk
  rw [Accts.get_ok.mpr (gap_acct d ha), ok_bind]
  have e : (a.gap d).position.baseFreeNative = a.position.baseFreeNative - d.base := rfl
  have e2 : (g.gap k d).market.baseDepositTotal = g.market.baseDepositTotal + d.depBase := rfl
  rw [e]
  simp only
  rw [ckU64_eq (by omega) (by omega), ok_bind, ckU64_eq (by omega) (by omega), ok_bind, ckU64_eq (by omega) (by omega), ok_bind]
  have := locked_base d nd ha (min amt (a.position.baseFreeNative - d.base)) (amt - min amt (a.position.baseFreeNative - d.base))
  rw [← this]
  rfl

theorem lockBid_gap (nd : (g.accts.map (·.1)).Nodup) (ha : g.accts.get? k = some a) {amt : Int} (h0 : 0 ≤ amt) (h1 : amt ≤ u64Max)
    (hf : d.quote ≤ a.position.quoteFreeNative) (hf1 : a.position.quoteFreeNative - d.quote ≤ u64Max)
    (ht : 0 ≤ g.market.quoteDepositTotal + d.depQuote)
    (hfit : g.market.quoteDepositTotal + d.depQuote + (amt - min amt (a.position.quoteFreeNative - d.quote)) ≤ u64Max) :
    lockBid (g.gap k d) k amt =
      .ok (g.gap k (d.moreQuote (min amt (a.position.quoteFreeNative - d.quote)) (amt - min amt (a.position.quoteFreeNative - d.quote))),
        amt - min amt (a.position.quoteFreeNative - d.quote)) := by
  unfold lockBid
  rw [Accts.get_ok.mpr (gap_acct d ha), ok_bind]
  have e : (a.gap d).position.quoteFreeNative = a.position.quoteFreeNative - d.quote := rfl
  have e2 : (g.gap k d).market.quoteDepositTotal = g.market.quoteDepositTotal + d.depQuote := rfl
  rw [e]
  simp only
  rw [ckU64_eq (by omega) (by omega), ok_bind, ckU64_eq (by omega) (by omega), ok_bind, ckU64_eq (by omega) (by omega), ok_bind]
  have := locked_quote d nd ha (min amt (a.position.quoteFreeNative - d.quote)) (amt - min amt (a.position.quoteFreeNative - d.quote))
  rw [← this]
  rfl

theorem addPenalty_gap (nd : (g.accts.map (·.1)).Nodup) (ha : g.accts.get? k = some a) (n : Nat)
    (h0 : 0 ≤ a.position.penaltyHeapCount + d.pen) (h1 : a.position.penaltyHeapCount + d.pen + 1 ≤ u64Max) :
    addPenalty (g.gap k d) k n = .ok (g.gap k (d.morePen (if g.heap.len > n then 1 else 0))) := by
  unfold addPenalty
  show (if g.heap.len > n then _ else _) = _
  split
  · rw [Accts.get_ok.mpr (gap_acct d ha), ok_bind]
    have e : (a.gap d).position.penaltyHeapCount = a.position.penaltyHeapCount + d.pen := rfl
    rw [e, ckU64_eq (by omega) (by omega), ok_bind, ← added_penalty d nd ha]
    rfl
  · simp [Gap.morePen]

/-- The batch's own bookkeeping is a difference as well. -/
theorem lockAsk_gap_inv (nd : (g.accts.map (·.1)).Nodup) (ha : g.accts.get? k = some a) {amt dep : Int} {g' : Ledger}
    (h : lockAsk (g.gap k d) k amt = .ok (g', dep)) :
    dep = amt - min amt (a.position.baseFreeNative - d.base) ∧
      g' = g.gap k (d.moreBase (min amt (a.position.baseFreeNative - d.base)) dep) := by
  obtain ⟨a', hl⟩ := lockAsk_inv h
  have := hl.acct
  rw [gap_acct d ha] at this
  injection this with this
  subst this
  refine ⟨hl.depEq, ?_⟩
  rw [hl.res, ← locked_base d nd ha]
  rfl

theorem lockBid_gap_inv (nd : (g.accts.map (·.1)).Nodup) (ha : g.accts.get? k = some a) {amt dep : Int} {g' : Ledger}
    (h : lockBid (g.gap k d) k amt = .ok (g', dep)) :
    dep = amt - min amt (a.position.quoteFreeNative - d.quote) ∧
      g' = g.gap k (d.moreQuote (min amt (a.position.quoteFreeNative - d.quote)) dep) := by
  obtain ⟨a', hl⟩ := lockBid_inv h
  have := hl.acct
  rw [gap_acct d ha] at this
  injection this with this
  subst this
  refine ⟨hl.depEq, ?_⟩
  rw [hl.res, ← locked_quote d nd ha]
  rfl

theorem addPenalty_gap_inv (nd : (g.accts.map (·.1)).Nodup) (ha : g.accts.get? k = some a) {n : Nat} {g' : Ledger}
    (h : addPenalty (g.gap k d) k n = .ok g') : g' = g.gap k (d.morePen (if g.heap.len > n then 1 else 0)) := by
  unfold addPenalty at h
  have e : (g.gap k d).heap = g.heap := rfl
  rw [e] at h
  split at h
  · rename_i hn
    rw [if_pos hn, ← added_penalty d nd ha]
    simp only [bind_ok, pure_ok, ckU64_ok, Accts.get_ok] at h
    obtain ⟨a', ha', _, ⟨_, rfl⟩, h⟩ := h
    rw [gap_acct d ha] at ha'
    injection ha' with ha'
    subst ha'
    exact h.symm
  · rename_i hn
    cases h
    rw [if_neg hn]
    simp [Gap.morePen]
end

/-! ### the two ways side by side -/

/-- What a batch finds when it starts placing. -/
structure BatchAt (s : State) (c : MultiCtx) (nowTs : Nat) : Prop where
  inv : Inv s
  isOpen : s.closed = false
  signer : c.signer ≠ s.g.market.marketAuthority
  acct : ∃ a, s.g.accts.get? c.ooKey = some a ∧ a.isOwnerOrDelegate c.signer = true
  admin : s.g.market.openOrdersAdmin = c.admin
  mintQ : mintIs s.tokens c.userQuote s.g.market.marketQuoteVault = .ok ()
  mintB : mintIs s.tokens c.userBase s.g.market.marketBaseVault = .ok ()
  live : s.g.market.isExpired c.now = false
  now : nowU64 c.now = .ok nowTs
  oracle : oracleOk s c.oracle = .ok ()
  ownB : (s.tokens c.userBase).owner = c.signer
  ownQ : (s.tokens c.userQuote).owner = c.signer
  wallets : c.userBase ≠ c.userQuote
  base0 : 0 ≤ tokens s c.userBase
  quote0 : 0 ≤ tokens s c.userQuote
  baseFit : tokens s c.userBase + tokens s s.g.market.marketBaseVault ≤ u64Max
  quoteFit : tokens s c.userQuote + tokens s s.g.market.marketQuoteVault ≤ u64Max

/-- The batch is at `book`, `g` with `b` and `q` still to be paid; one at a time, with everything paid, the state is `σ`.  `n` orders have
been placed. -/
structure Alike (s : State) (c : MultiCtx) (n : Nat) (book : Book) (g : Ledger) (b q : Int) (σ : State) (d : Gap) : Prop where
  ok : d.Ok
  gap : HasGap c.ooKey d g
  frame : LFrame s.g g
  state : EngineState book g
  base : d.base + d.depBase = b
  quote : d.quote + d.depQuote = q
  depB : 0 ≤ d.depBase ∧ d.depBase ≤ tokens s c.userBase
  depQ : 0 ≤ d.depQuote ∧ d.depQuote ≤ tokens s c.userQuote
  pen : 0 ≤ d.pen ∧ d.pen ≤ n
  heap : s.g.heap.len ≤ g.heap.len ∧ (d.pen = 0 ↔ g.heap.len = s.g.heap.len)
  res : σ = { s with g := g.gap c.ooKey d, book := book, tokens := σ.tokens }
  kind : ∀ k, (σ.tokens k).owner = (s.tokens k).owner ∧ (σ.tokens k).mint = (s.tokens k).mint
  tok : ∀ k, tokens σ k = tokens s k + moved k c.userBase s.g.market.marketBaseVault d.depBase +
    moved k c.userQuote s.g.market.marketQuoteVault d.depQuote

theorem BatchAt.ne {s : State} {c : MultiCtx} {nowTs : Nat} (B : BatchAt s c nowTs) :
    c.userBase ≠ s.g.market.marketBaseVault ∧ c.userBase ≠ s.g.market.marketQuoteVault ∧
    c.userQuote ≠ s.g.market.marketBaseVault ∧ c.userQuote ≠ s.g.market.marketQuoteVault := by
  have o1 := B.inv.vb.owner
  have o2 := B.inv.vq.owner
  have h1 := B.ownB
  have h2 := B.ownQ
  have hs := B.signer
  refine ⟨fun e => ?_, fun e => ?_, fun e => ?_, fun e => ?_⟩
  · rw [e, o1] at h1; exact hs h1.symm
  · rw [e, o2] at h1; exact hs h1.symm
  · rw [e, o1] at h2; exact hs h2.symm
  · rw [e, o2] at h2; exact hs h2.symm

theorem Alike.start {s : State} {c : MultiCtx} {nowTs : Nat} (hr : Reachable s) (B : BatchAt s c nowTs)
    (hf : ∀ a, s.g.accts.get? c.ooKey = some a → 0 ≤ a.position.baseFreeNative ∧ 0 ≤ a.position.quoteFreeNative) :
    Alike s c 0 s.book s.g 0 0 s .zero := by
  refine ⟨⟨Int.le_refl _, Int.le_refl _⟩, fun a ha => ⟨(hf a ha).1, (hf a ha).2⟩, .refl _, .reachable s hr, rfl, rfl, ⟨Int.le_refl _, B.base0⟩,
    ⟨Int.le_refl _, B.quote0⟩, ⟨Int.le_refl _, Int.le_refl _⟩, ⟨Nat.le_refl _, fun _ => rfl, fun _ => rfl⟩, ?_, fun k => ⟨rfl, rfl⟩, fun k => ?_⟩
  · rw [Ledger.gap_zero]
  · simp [moved, Gap.zero]

/-- What `place_order` needs to succeed. -/
theorem placeOrder_go {s : State} {c : PlaceCtx} {order : Order} {limit nowTs : Nat} {a : OOA} {r : OrderResult} {book1 : Book} {g1 g2 g3 : Ledger}
    {cost dep : Int} {t : Tokens} (h1 : s.closed = false) (h2 : c.signer ≠ s.g.market.marketAuthority) (h3 : s.g.accts.get? c.ooKey = some a)
    (h4 : a.isOwnerOrDelegate c.signer = true) (h5 : s.g.market.openOrdersAdmin = c.admin)
    (h6 : mintIs s.tokens c.userToken (s.g.market.vaultBySide order.side) = .ok ()) (h7 : 0 ≤ order.maxBaseLots)
    (h8 : 0 ≤ order.maxQuoteLotsIncludingFees) (h9 : s.g.market.isExpired c.now = false) (h10 : nowU64 c.now = .ok nowTs)
    (h11 : oracleOk s c.oracle = .ok ()) (h12 : newOrder (placeEnv c order nowTs limit) s.book s.g = .ok (r, book1, g1))
    (h13 : orderCost order.side r = .ok cost)
    (h14 : (match order.side with
      | .bid => lockBid g1 c.ooKey cost
      | .ask => lockAsk g1 c.ooKey cost : R (Ledger × Int)) = .ok (g2, dep))
    (h15 : addPenalty g2 c.ooKey s.g.heap.len = .ok g3)
    (h16 : tokenTransfer s.tokens dep c.userToken (s.g.market.vaultBySide order.side) c.signer = .ok t) :
    placeOrder s c order limit = .ok (r, { s with g := g3, book := book1, tokens := t }) := by
  unfold placeOrder
  simp only [bind_ok, req_ok, pure_ok]
  refine ⟨(), ?_, (), h6, (), h7, (), h8, (), h9, nowTs, h10, (), h11, (r, book1, g1), h12, cost, h13, (g2, dep), h14, g3, h15, t, h16, rfl⟩
  unfold authPlace State.open? signerOk
  simp only [bind_ok, req_ok, Accts.get_ok]
  exact ⟨(), h1, (), h2, a, h3, (), h4, h5⟩

theorem isOwnerOrDelegate_congr {a a' : OOA} (h1 : a'.owner = a.owner) (h2 : a'.delegate = a.delegate) (k : Pubkey) :
    a'.isOwnerOrDelegate k = a.isOwnerOrDelegate k := by
  unfold OOA.isOwnerOrDelegate; rw [h1, h2]

namespace Alike
variable {s σ : State} {c : MultiCtx} {n nowTs : Nat} {book : Book} {g : Ledger} {b q : Int} {d : Gap}

theorem acct (A : Alike s c n book g b q σ d) (B : BatchAt s c nowTs) (hr : Reachable s) : ∃ a, g.accts.get? c.ooKey = some a ∧ a.isOwnerOrDelegate c.signer = true ∧
    a.position.penaltyHeapCount = owes s c.ooKey ∧ inU64 a.position.baseFreeNative ∧ inU64 a.position.quoteFreeNative ∧ GapIn d a ∧
    (g.accts.map (·.1)).Nodup := by
  obtain ⟨a0, h0, h1⟩ := B.acct
  obtain ⟨a, ha, e1, e2, _, _, e3⟩ := A.frame.accts _ _ h0
  obtain ⟨dB, dQ, hc⟩ := A.state.core
  obtain ⟨k1, k2, _⟩ := hc.linv.acctOk ha
  obtain ⟨O, ev, hw⟩ := hc.linv
  exact ⟨a, ha, by rw [isOwnerOrDelegate_congr e1 e2]; exact h1, by rw [e3, owes_some h0], k1, k2, A.gap a ha, hw.ginv.nodup⟩

theorem walletB (A : Alike s c n book g b q σ d) (B : BatchAt s c nowTs) : tokens σ c.userBase = tokens s c.userBase - d.depBase := by
  have := A.tok c.userBase
  obtain ⟨n1, n2, n3, n4⟩ := B.ne
  unfold moved at this
  rw [if_neg n1, if_pos rfl, if_neg n2, if_neg B.wallets] at this
  omega

theorem walletQ (A : Alike s c n book g b q σ d) (B : BatchAt s c nowTs) : tokens σ c.userQuote = tokens s c.userQuote - d.depQuote := by
  have := A.tok c.userQuote
  obtain ⟨n1, n2, n3, n4⟩ := B.ne
  unfold moved at this
  rw [if_neg n4, if_pos rfl, if_neg n3, if_neg (Ne.symm B.wallets)] at this
  omega

theorem vaultB (A : Alike s c n book g b q σ d) (B : BatchAt s c nowTs) :
    tokens σ s.g.market.marketBaseVault = tokens s s.g.market.marketBaseVault + d.depBase := by
  have := A.tok s.g.market.marketBaseVault
  obtain ⟨n1, n2, n3, n4⟩ := B.ne
  unfold moved at this
  rw [if_pos rfl, if_neg (Ne.symm n1), if_neg B.inv.vaults, if_neg (Ne.symm n3)] at this
  omega

theorem vaultQ (A : Alike s c n book g b q σ d) (B : BatchAt s c nowTs) :
    tokens σ s.g.market.marketQuoteVault = tokens s s.g.market.marketQuoteVault + d.depQuote := by
  have := A.tok s.g.market.marketQuoteVault
  obtain ⟨n1, n2, n3, n4⟩ := B.ne
  unfold moved at this
  rw [if_neg (Ne.symm B.inv.vaults), if_neg (Ne.symm n2), if_pos rfl, if_neg (Ne.symm n4)] at this
  omega

theorem free (A : Alike s c n book g b q σ d) {a : OOA} (ha : g.accts.get? c.ooKey = some a) :
    freeBase σ c.ooKey = a.position.baseFreeNative - d.base ∧ freeQuote σ c.ooKey = a.position.quoteFreeNative - d.quote := by
  have e : σ.g = g.gap c.ooKey d := congrArg State.g A.res
  have := gap_acct d ha
  rw [← e] at this
  unfold freeBase freeQuote
  rw [this]
  exact ⟨rfl, rfl⟩

/-- The bounds of the batch are the bounds of the single order. -/
theorem bound (A : Alike s c n book g b q σ d) (B : BatchAt s c nowTs) (hr : Reachable s) {o o' : Order}
    (h : boundOrder g c.ooKey (tokens s c.userBase) (tokens s c.userQuote) b q o = .ok o') :
    0 ≤ o.maxQuoteLotsIncludingFees ∧
    (o.side = .ask → o' = { o with
      maxBaseLots := min (i64Max / σ.g.market.baseLotSize) ((tokens σ c.userBase + freeBase σ c.ooKey) / σ.g.market.baseLotSize) }) ∧
    (o.side = .bid → o' = { o with
      maxBaseLots := i64Max / σ.g.market.baseLotSize
      maxQuoteLotsIncludingFees := min o.maxQuoteLotsIncludingFees
        (min (i64Max / σ.g.market.quoteLotSize) ((tokens σ c.userQuote + freeQuote σ c.ooKey) / σ.g.market.quoteLotSize)) }) := by
  obtain ⟨a, ha, _⟩ := A.acct B hr
  obtain ⟨f1, f2⟩ := A.free ha
  have e : σ.g.market = g.market.gap d := congrArg (fun x : State => x.g.market) A.res
  rw [f1, f2, A.walletB B, A.walletQ B, e]
  have h1 := A.base
  have h2 := A.quote
  unfold boundOrder at h
  simp only [bind_ok, req_ok, Accts.get_ok] at h
  obtain ⟨a', ha', _, h0, h⟩ := h
  rw [ha] at ha'; injection ha' with ha'; subst ha'
  refine ⟨h0, fun hs => ?_, fun hs => ?_⟩
  · rw [hs] at h
    simp only [bind_ok, pure_ok, ckU64_ok] at h
    obtain ⟨_, ⟨_, rfl⟩, _, ⟨_, rfl⟩, rfl⟩ := h
    have e : tokens s c.userBase + a.position.baseFreeNative - b = tokens s c.userBase - d.depBase + (a.position.baseFreeNative - d.base) := by omega
    rw [e]
    simp only [Market.maxBaseLots, Market.maxBaseLotsFromLamports, Market.gap]
    rw [← min_assoc, min_self, hs]
  · rw [hs] at h
    simp only [bind_ok, pure_ok, ckU64_ok] at h
    obtain ⟨_, ⟨_, rfl⟩, _, ⟨_, rfl⟩, rfl⟩ := h
    have e : tokens s c.userQuote + a.position.quoteFreeNative - q = tokens s c.userQuote - d.depQuote + (a.position.quoteFreeNative - d.quote) := by
      omega
    rw [e]
    simp only [Market.maxBaseLots, Market.maxQuoteLots, Market.maxQuoteLotsFromLamports, Market.gap]
    rw [hs]

theorem moved_add (k src dst : Pubkey) (x y : Int) : moved k src dst (x + y) = moved k src dst x + moved k src dst y := by
  unfold moved; split <;> split <;> omega

/-- The difference after another order. -/
theorem pack (A : Alike s c n book g b q σ d) {book1 : Book} {g1 : Ledger} {b1 q1 : Int} {d' : Gap} {t : Tokens} {p : Int}
    (hst : EngineState book1 g1) (hfr : LFrame g g1) (hok : d'.Ok) (hgap : HasGap c.ooKey d' g1) (hb : d'.base + d'.depBase = b1)
    (hq : d'.quote + d'.depQuote = q1) (h1 : 0 ≤ d'.depBase ∧ d'.depBase ≤ tokens s c.userBase)
    (h2 : 0 ≤ d'.depQuote ∧ d'.depQuote ≤ tokens s c.userQuote) (hgrow : g.heap.len ≤ g1.heap.len) (hp : d'.pen = d.pen)
    (ep : p = if g1.heap.len > g.heap.len then 1 else 0)
    (hk : ∀ k, (t k).owner = (σ.tokens k).owner ∧ (t k).mint = (σ.tokens k).mint)
    (ht : ∀ k, (t k).amount = tokens σ k + moved k c.userBase s.g.market.marketBaseVault (d'.depBase - d.depBase) +
      moved k c.userQuote s.g.market.marketQuoteVault (d'.depQuote - d.depQuote)) :
    Alike s c (n + 1) book1 g1 b1 q1 { σ with g := g1.gap c.ooKey (d'.morePen p), book := book1, tokens := t } (d'.morePen p) := by
  obtain ⟨hh1, hh2⟩ := A.heap
  obtain ⟨hpp0, hpp1⟩ := A.pen
  refine ⟨⟨hok.base, hok.quote⟩, fun a ha => ⟨(hgap a ha).base, (hgap a ha).quote⟩, A.frame.trans hfr, hst, hb, hq, h1, h2, ?_, ?_, ?_, fun k => ?_, fun k => ?_⟩
  · show 0 ≤ d'.pen + p ∧ d'.pen + p ≤ _
    rw [hp]
    split at ep <;> omega
  · show _ ∧ (d'.pen + p = 0 ↔ _)
    rw [hp]
    split at ep <;> omega
  · have e1 : σ.lamports = s.lamports := (congrArg State.lamports A.res :)
    have e2 : σ.marketKey = s.marketKey := (congrArg State.marketKey A.res :)
    have e3 : σ.closed = s.closed := (congrArg State.closed A.res :)
    rw [e1, e2, e3]
  · exact ⟨(hk k).1.trans (A.kind k).1, (hk k).2.trans (A.kind k).2⟩
  · show (t k).amount = _
    rw [ht, A.tok]
    have e1 := moved_add k c.userBase s.g.market.marketBaseVault d.depBase (d'.depBase - d.depBase)
    have e2 := moved_add k c.userQuote s.g.market.marketQuoteVault d.depQuote (d'.depQuote - d.depQuote)
    rw [show d.depBase + (d'.depBase - d.depBase) = d'.depBase by omega] at e1
    rw [show d.depQuote + (d'.depQuote - d.depQuote) = d'.depQuote by omega] at e2
    show _ = _ + moved k c.userBase s.g.market.marketBaseVault d'.depBase + moved k c.userQuote s.g.market.marketQuoteVault d'.depQuote
    omega

theorem next (A : Alike s c n book g b q σ d) (B : BatchAt s c nowTs) (hr : Reachable s) {o o' : Order} {limit : Nat} {r : OrderResult}
    {book1 : Book} {g1 : Ledger} {cost b1 q1 : Int} (ho : OrderTyped o)
    (hbo : boundOrder g c.ooKey (tokens s c.userBase) (tokens s c.userQuote) b q o = .ok o')
    (hn : newOrder (multiEnv c o' nowTs limit) book g = .ok (r, book1, g1)) (hcost : orderCost o.side r = .ok cost)
    (hadd : (match o.side with
      | .bid => do return (b, ← addAmt q cost)
      | .ask => do return (← addAmt b cost, q) : R (Int × Int)) = .ok (b1, q1))
    (hpen : owes s c.ooKey + n + 1 ≤ u64Max) :
    ∃ σ' d', placeOrder σ (singleCtx c o.side) o' limit = .ok (r, σ') ∧ Alike s c (n + 1) book1 g1 b1 q1 σ' d' := by
  obtain ⟨a, ha, hown, hp, hfb, hfq, hin, hnd⟩ := A.acct B hr
  obtain ⟨f1, f2⟩ := A.free ha
  obtain ⟨hq0, hask, hbid⟩ := A.bound B hr hbo
  have eg : σ.g = g.gap c.ooKey d := congrArg State.g A.res
  have em : σ.g.market = g.market.gap d := congrArg Ledger.market eg
  have cfg := A.frame.cfg
  -- the call of the engine
  obtain ⟨dB, dQ, hc⟩ := A.state.core
  obtain ⟨k1, k2, k3, k4, k5, k6, k7⟩ := boundOrder_ok hc.bls hc.qls ho hbo
  have hnow := (nowU64_eq B.now).2
  have hv : CallValid (multiEnv c o' nowTs limit) g :=
    ⟨⟨⟨k1.1, k1.2⟩, ⟨k1.3, k1.4⟩, k1.5, k1.6⟩, hnow, oracleOk_range B.oracle, (fun h => nomatch h)⟩
  have hcall : EngineCall (multiEnv c o' nowTs limit) book g r book1 g1 := ⟨A.state, hv, hn⟩
  obtain ⟨C⟩ := callRun hcall
  have hst1 : EngineState book1 g1 := .next _ _ _ _ _ _ A.state hv hn
  have hfr : LFrame g g1 := C.P.frame
  obtain ⟨w, hw, hgap1, hwe⟩ := newOrder_gap A.ok (env := multiEnv c o' nowTs limit) (k := c.ooKey) ⟨rfl, rfl⟩ book A.gap _ hn
  simp only at hgap1 hwe
  subst hwe
  -- the account afterwards
  obtain ⟨a1, ha1, o1, o2, ob, oq, op⟩ := hfr.accts _ _ ha
  obtain ⟨dB1, dQ1, hc1⟩ := hst1.core
  obtain ⟨u1, u2, _⟩ := hc1.linv.acctOk ha1
  have hnd1 : (g1.accts.map (·.1)).Nodup := by rw [hfr.keys]; exact hnd
  have hin1 := hgap1 a1 ha1
  obtain ⟨c0, c1, c2⟩ := orderCost_inv hcost
  have hpn := (reachable_accts hr c.ooKey)
  obtain ⟨a0, ha0, _⟩ := B.acct
  have hp0 := (reachable_accts hr _ _ ha0).1
  have eo := owes_some ha0
  -- the heap
  have hl1 : g.heap.len = g.heap.events.length := by obtain ⟨O, e, hw⟩ := hc.linv; exact OB.heap_len hw.heap
  have hl2 : g1.heap.len = g1.heap.events.length := by obtain ⟨O, e, hw⟩ := hc1.linv; exact OB.heap_len hw.heap
  obtain ⟨E, hE, _⟩ := C.events
  have hgrow : g.heap.len ≤ g1.heap.len := by rw [hl1, hl2, hE, List.length_append]; omega
  obtain ⟨hh1, hh2⟩ := A.heap
  obtain ⟨hpp0, hpp1⟩ := A.pen
  -- market configuration
  have m1 : g1.market.baseDepositTotal = s.g.market.baseDepositTotal := by rw [hfr.cfg, cfg]
  have m2 : g1.market.quoteDepositTotal = s.g.market.quoteDepositTotal := by rw [hfr.cfg, cfg]
  have tb : _ ≤ tokens s _ := B.inv.vb.le
  have tq : _ ≤ tokens s _ := B.inv.vq.le
  have tb0 := B.inv.vb.total
  have tq0 := B.inv.vq.total
  have bf := B.baseFit
  have qf := B.quoteFit
  obtain ⟨db0, db1⟩ := A.depB
  obtain ⟨dq0, dq1⟩ := A.depQ
  have sb := A.base
  have sq := A.quote
  have wB := A.walletB B
  have wQ := A.walletQ B
  have vB := A.vaultB B
  have vQ := A.vaultQ B
  unfold inU64 at tb0 tq0 u1 u2
  have hpenle : a1.position.penaltyHeapCount = owes s c.ooKey := by omega
  have env : placeEnv (singleCtx c o.side) o' nowTs limit = multiEnv c o' nowTs limit := rfl
  have hnew : newOrder (placeEnv (singleCtx c o.side) o' nowTs limit) σ.book σ.g = .ok (r, book1, g1.gap c.ooKey d) := by
    rw [env, eg, show σ.book = book from congrArg State.book A.res]; exact hw
  have hmkt : ∀ side, σ.g.market.vaultBySide side = s.g.market.vaultBySide side := by
    intro side; rw [em, cfg]; cases side <;> rfl
  have hmint : mintIs σ.tokens (singleCtx c o.side).userToken (σ.g.market.vaultBySide o'.side) = .ok () := by
    rw [hmkt, k2]
    unfold mintIs
    rw [(A.kind _).2, (A.kind _).2]
    cases o.side
    · exact B.mintQ
    · exact B.mintB
  have hpack : ∀ (d' : Gap) (dep : Int) (t : Tokens) (_ : (match o'.side with
      | .bid => lockBid (g1.gap c.ooKey d) c.ooKey cost
      | .ask => lockAsk (g1.gap c.ooKey d) c.ooKey cost : R (Ledger × Int)) = .ok (g1.gap c.ooKey d', dep)) (_ : d'.pen = d.pen)
      (_ : tokenTransfer σ.tokens dep (singleCtx c o.side).userToken (s.g.market.vaultBySide o'.side) c.signer = .ok t),
      placeOrder σ (singleCtx c o.side) o' limit = .ok (r, { σ with
        g := g1.gap c.ooKey (d'.morePen (if g1.heap.len > g.heap.len then 1 else 0)), book := book1, tokens := t }) := by
    intro d' dep t hlock hd' ht
    refine placeOrder_go (a := a.gap d) (nowTs := nowTs) ?_ ?_ ?_ ?_ ?_ hmint k1.base0 k1.quote0 ?_ B.now ?_ hnew (by rw [k2]; exact hcost) hlock ?_ ?_
    · rw [A.res]; exact B.isOpen
    · rw [em, cfg]; exact B.signer
    · rw [eg]; exact gap_acct d ha
    · exact hown
    · rw [em, cfg]; exact B.admin
    · rw [em, cfg]; exact B.live
    · have := B.oracle
      unfold oracleOk at this ⊢
      rw [em, cfg]; exact this
    · rw [show σ.g.heap = g.heap by rw [eg]; rfl]
      exact addPenalty_gap d' hnd1 ha1 _ (by omega) (by omega)
    · rw [hmkt]; exact ht
  cases hs : o.side with
  | ask =>
    rw [hs] at hadd c2 k2 hpack hmint
    simp only [bind_ok, pure_ok] at hadd
    obtain ⟨z, hz, hadd⟩ := hadd
    injection hadd with e1 e2
    obtain ⟨_, hz⟩ := addAmt_ok hz
    subst e1 e2
    have hbb : r.totalBaseTakenNative + r.postedBaseNative ≤ o'.maxBaseLots * g.market.baseLotSize := C.base_budget
    have hav : o'.maxBaseLots * g.market.baseLotSize ≤ tokens σ c.userBase + freeBase σ c.ooKey := by
      have e : σ.g.market.baseLotSize = g.market.baseLotSize := by rw [em]; rfl
      rw [hask hs, e]
      refine Int.le_trans (Int.mul_le_mul_of_nonneg_right (Int.min_le_right _ _) (Int.le_of_lt hc.bls)) ?_
      rw [Int.mul_comm]; exact Int.mul_ediv_self_le (Int.ne_of_gt hc.bls)
    simp only [OrderResult.cost] at c2
    have hinb := hin1.base
    obtain ⟨x, hx⟩ : ∃ x, x = min cost (a1.position.baseFreeNative - d.base) := ⟨_, rfl⟩
    have hok := A.ok
    have okb := hok.base
    have hlock := lockAsk_gap d hnd1 ha1 c0 c1 hinb (by omega) (by omega) (by omega)
    rw [← hx] at hlock
    have hbm := B.mintB
    unfold mintIs at hbm
    rw [req_ok] at hbm
    obtain ⟨t, ht⟩ := tokenTransfer_ok (t := σ.tokens) (amt := cost - x) (src := c.userBase) (dst := s.g.market.marketBaseVault) (auth := c.signer)
      (by show _ ≤ tokens σ c.userBase; omega) (by rw [(A.kind _).2, (A.kind _).2]; exact hbm.1)
      (by rw [(A.kind _).1]; exact B.ownB) (by show 0 ≤ tokens σ _; omega) (by show tokens σ _ + _ ≤ _; omega)
    have hsp := fun k => tokenTransfer_spec ht (by omega) k
    refine ⟨_, (d.moreBase x (cost - x)).morePen (if g1.heap.len > g.heap.len then 1 else 0), hpack (d.moreBase x (cost - x)) (cost - x) t (by rw [k2]; exact hlock) rfl (by rw [k2]; exact ht), ?_⟩
    refine A.pack hst1 hfr ⟨?_, hok.quote⟩ (fun a2 ha2 => ?_) ?_ sq ⟨?_, ?_⟩ ⟨dq0, dq1⟩ hgrow rfl rfl (fun k => ⟨(hsp k).1, (hsp k).2.1⟩)
      (fun k => ?_)
    · show 0 ≤ d.base + x; omega
    · rw [ha1] at ha2; injection ha2 with ha2; subst ha2
      exact ⟨by show d.base + x ≤ _; omega, hin1.quote⟩
    · show d.base + x + (d.depBase + (cost - x)) = _; omega
    · show 0 ≤ d.depBase + (cost - x); omega
    · show d.depBase + (cost - x) ≤ _; omega
    · rw [(hsp k).2.2]
      show tokens σ k + _ - _ = _
      rw [show (d.moreBase x (cost - x)).depBase - d.depBase = cost - x by show d.depBase + (cost - x) - _ = _; omega,
        show (d.moreBase x (cost - x)).depQuote - d.depQuote = 0 by show d.depQuote - _ = _; omega]
      unfold moved
      simp only [ite_self]
      omega
  | bid =>
    rw [hs] at hadd c2 k2 hpack hmint
    simp only [bind_ok, pure_ok] at hadd
    obtain ⟨z, hz, hadd⟩ := hadd
    injection hadd with e1 e2
    obtain ⟨_, hz⟩ := addAmt_ok hz
    subst e1 e2
    have hbb : _ ≤ o'.maxQuoteLotsIncludingFees * g.market.quoteLotSize := C.bid_budget k2
    have hav : o'.maxQuoteLotsIncludingFees * g.market.quoteLotSize ≤ tokens σ c.userQuote + freeQuote σ c.ooKey := by
      have e : σ.g.market.quoteLotSize = g.market.quoteLotSize := by rw [em]; rfl
      rw [hbid hs, e]
      refine Int.le_trans (Int.mul_le_mul_of_nonneg_right (Int.le_trans (Int.min_le_right _ _) (Int.min_le_right _ _)) (Int.le_of_lt hc.qls)) ?_
      rw [Int.mul_comm]; exact Int.mul_ediv_self_le (Int.ne_of_gt hc.qls)
    simp only [OrderResult.cost] at c2
    have hinb := hin1.quote
    obtain ⟨x, hx⟩ : ∃ x, x = min cost (a1.position.quoteFreeNative - d.quote) := ⟨_, rfl⟩
    have hok := A.ok
    have okb := hok.quote
    have hlock := lockBid_gap d hnd1 ha1 c0 c1 hinb (by omega) (by omega) (by omega)
    rw [← hx] at hlock
    have hbm := B.mintQ
    unfold mintIs at hbm
    rw [req_ok] at hbm
    obtain ⟨t, ht⟩ := tokenTransfer_ok (t := σ.tokens) (amt := cost - x) (src := c.userQuote) (dst := s.g.market.marketQuoteVault) (auth := c.signer)
      (by show _ ≤ tokens σ c.userQuote; omega) (by rw [(A.kind _).2, (A.kind _).2]; exact hbm.1)
      (by rw [(A.kind _).1]; exact B.ownQ) (by show 0 ≤ tokens σ _; omega) (by show tokens σ _ + _ ≤ _; omega)
    have hsp := fun k => tokenTransfer_spec ht (by omega) k
    refine ⟨_, (d.moreQuote x (cost - x)).morePen (if g1.heap.len > g.heap.len then 1 else 0), hpack (d.moreQuote x (cost - x)) (cost - x) t (by rw [k2]; exact hlock) rfl (by rw [k2]; exact ht), ?_⟩
    refine A.pack hst1 hfr ⟨hok.base, ?_⟩ (fun a2 ha2 => ?_) sb ?_ ⟨db0, db1⟩ ⟨?_, ?_⟩ hgrow rfl rfl (fun k => ⟨(hsp k).1, (hsp k).2.1⟩)
      (fun k => ?_)
    · show 0 ≤ d.quote + x; omega
    · rw [ha1] at ha2; injection ha2 with ha2; subst ha2
      exact ⟨hin1.base, by show d.quote + x ≤ _; omega⟩
    · show d.quote + x + (d.depQuote + (cost - x)) = _; omega
    · show 0 ≤ d.depQuote + (cost - x); omega
    · show d.depQuote + (cost - x) ≤ _; omega
    · rw [(hsp k).2.2]
      show tokens σ k + _ - _ = _
      rw [show (d.moreQuote x (cost - x)).depQuote - d.depQuote = cost - x by show d.depQuote + (cost - x) - _ = _; omega,
        show (d.moreQuote x (cost - x)).depBase - d.depBase = 0 by show d.depBase - _ = _; omega]
      unfold moved
      simp only [ite_self]
      omega

end Alike

/-! ### the loop -/

/-- The orders of the entries that have not expired. -/
inductive Built (t : PlaceOrderType) (now : Nat) : List (Side × Nat × MultiArgs) → List Order → Prop
  | nil : Built t now [] []
  | skip (e : Side × Nat × MultiArgs) (es : List (Side × Nat × MultiArgs)) (os : List Order) (typed : e.2.2.typed) (price : e.2.2.priceLots ≥ 1)
      (gone : tifFromExpiry now e.2.2.expiry = none) (h : Built t now es os) : Built t now (e :: es) os
  | cons (e : Side × Nat × MultiArgs) (es : List (Side × Nat × MultiArgs)) (os : List Order) (tif : Nat) (p : OrderParams) (typed : e.2.2.typed)
      (price : e.2.2.priceLots ≥ 1) (left : tifFromExpiry now e.2.2.expiry = some tif) (params : orderParams t e.2.2.priceLots = .ok p)
      (h : Built t now es os) : Built t now (e :: es)
        ({ side := e.1, maxBaseLots := 0, maxQuoteLotsIncludingFees := e.2.2.maxQuoteLots, clientOrderId := e.2.1, timeInForce := tif
           selfTradeBehavior := .cancelProvide, params := p } :: os)

theorem Built.append {t : PlaceOrderType} {now : Nat} {es fs : List (Side × Nat × MultiArgs)} {os ps : List Order} (h : Built t now es os)
    (h' : Built t now fs ps) : Built t now (es ++ fs) (os ++ ps) := by
  induction h with
  | nil => exact h'
  | skip e es os h1 h2 h3 _ ih => exact .skip _ _ _ h1 h2 h3 ih
  | cons e es os tif p h1 h2 h3 h4 _ ih => exact .cons _ _ _ _ _ h1 h2 h3 h4 ih

theorem multiOrders_built {t : PlaceOrderType} {now : Nat} {side : Side} {i : Nat} {as : List MultiArgs} {os : List Order}
    (h : multiOrders t now side i as = .ok os) : Built t now ((as.zipIdx i).map (fun x => (side, x.2, x.1))) os := by
  induction as generalizing i os with
  | nil => cases h; exact .nil
  | cons a as ih =>
    simp only [multiOrders, bind_ok, req_ok] at h
    obtain ⟨_, ht, _, hp, h⟩ := h
    rw [List.zipIdx_cons, List.map_cons]
    split at h
    · rename_i hn
      exact .skip _ _ _ ht hp hn (ih h)
    · rename_i tif hn
      simp only [bind_ok, pure_ok] at h
      obtain ⟨p, hpp, rest, hrest, rfl⟩ := h
      exact .cons _ _ _ tif p ht hp hn hpp (ih hrest)

theorem step_single {s s' : State} {c : PlaceCtx} {a : PlaceOrderArgs} {nowTs : Nat} {o : Order} {r : OrderResult} (hn : nowU64 c.now = .ok nowTs)
    (ha : a.order nowTs = .ok (some o)) (h : placeOrder s c o a.limit = .ok (r, s')) : step s (.placeOrder c a) = .ok s' := by
  show (do return (← placeOrderIx s c a).2) = _
  unfold placeOrderIx
  rw [hn, ok_bind, ha, ok_bind]
  simp only
  rw [h]
  rfl

theorem step_single_gone {s : State} {c : PlaceCtx} {a : PlaceOrderArgs} {nowTs : Nat} (hn : nowU64 c.now = .ok nowTs)
    (ha : a.order nowTs = .ok none) (h : authPlace s c.signer c.ooKey c.admin = .ok ()) : step s (.placeOrder c a) = .ok s := by
  show (do return (← placeOrderIx s c a).2) = _
  unfold placeOrderIx
  rw [hn, ok_bind, ha, ok_bind]
  simp only
  rw [h]
  rfl

namespace Alike
variable {s σ : State} {c : MultiCtx} {n nowTs : Nat} {book : Book} {g : Ledger} {b q : Int} {d : Gap}

theorem auth (A : Alike s c n book g b q σ d) (B : BatchAt s c nowTs) (hr : Reachable s) : authPlace σ c.signer c.ooKey c.admin = .ok () := by
  obtain ⟨a, ha, hown, _⟩ := A.acct B hr
  have eg : σ.g = g.gap c.ooKey d := (congrArg State.g A.res :)
  have em : σ.g.market = g.market.gap d := congrArg Ledger.market eg
  have e3 : σ.closed = s.closed := (congrArg State.closed A.res :)
  have cfg := A.frame.cfg
  unfold authPlace State.open? signerOk
  simp only [bind_ok, req_ok, Accts.get_ok]
  refine ⟨(), by rw [e3]; exact B.isOpen, (), ?_, a.gap d, by rw [eg]; exact gap_acct d ha, (), hown, ?_⟩
  · rw [em, cfg]; exact B.signer
  · rw [em, cfg]; exact B.admin

theorem typed (A : Alike s c n book g b q σ d) (B : BatchAt s c nowTs) (hr : Reachable s) {t : PlaceOrderType} {limit : Nat} (hl : limit < 256)
    {e : Side × Nat × MultiArgs} (he : e.2.2.typed) (hi : e.2.1 < two64) : (asSingle σ c t limit e).typed := by
  obtain ⟨a, ha, _, _, k1, k2, hin, _⟩ := A.acct B hr
  obtain ⟨f1, f2⟩ := A.free ha
  obtain ⟨dB, dQ, hc⟩ := A.state.core
  have em : σ.g.market = g.market.gap d := (congrArg (fun x : State => x.g.market) A.res :)
  have eb : σ.g.market.baseLotSize = g.market.baseLotSize := by rw [em]; rfl
  have eq : σ.g.market.quoteLotSize = g.market.quoteLotSize := by rw [em]; rfl
  have hb := hc.bls
  have hq := hc.qls
  have h1 := maxBaseLots_range hb
  have h2 := maxQuoteLots_range hq
  have wB := A.walletB B
  have wQ := A.walletQ B
  obtain ⟨_, db1⟩ := A.depB
  obtain ⟨_, dq1⟩ := A.depQ
  have i1 := hin.base
  have i2 := hin.quote
  have d1 := Int.ediv_nonneg (a := tokens σ c.userBase + freeBase σ c.ooKey) (by omega) (Int.le_of_lt hb)
  have d2 := Int.ediv_nonneg (a := tokens σ c.userQuote + freeQuote σ c.ooKey) (by omega) (Int.le_of_lt hq)
  obtain ⟨t1, t2, t3⟩ := he
  unfold Market.maxBaseLots at h1
  unfold Market.maxQuoteLots at h2
  have hmin : i64Min ≤ 0 := by decide
  unfold inI64 at t1 t2
  rw [← eb] at h1 d1
  rw [← eq] at h2 d2
  unfold PlaceOrderArgs.typed inI64
  refine ⟨t1, ?_, ?_, hi, t3, hl⟩
  · unfold asSingle; cases e.1 <;> simp only <;> omega
  · unfold asSingle; cases e.1 <;> simp only <;> omega

theorem loop (B : BatchAt s c nowTs) (hr : Reachable s) {t : PlaceOrderType} {limit : Nat} (hl : limit < 256)
    {es : List (Side × Nat × MultiArgs)} {os : List Order} (hes : Built t nowTs es os) (A : Alike s c n book g b q σ d) {rs : List OrderResult}
    {book' : Book} {g' : Ledger} {b' q' : Int} (hid : ∀ e ∈ es, e.2.1 < two64) (hpen : owes s c.ooKey + n + es.length ≤ u64Max)
    (h : multiLoop c nowTs limit (tokens s c.userBase) (tokens s c.userQuote) os book g b q = .ok (rs, book', g', b', q')) :
    ∃ σ' d' n', OneByOne c t limit σ es σ' ∧ Alike s c n' book' g' b' q' σ' d' ∧ n' ≤ n + es.length := by
  induction hes generalizing n book g b q σ d rs with
  | nil => cases h; exact ⟨σ, d, n, .nil _, A, by simp⟩
  | skip e es os h1 h2 h3 _ ih =>
    obtain ⟨σ', d', n', i1, i2, i3⟩ := ih A (fun e he => hid e (by simp [he])) (by simp only [List.length_cons] at hpen; omega) h
    refine ⟨σ', d', n', .cons _ _ _ _ _ ?_ i1, i2, by simp only [List.length_cons]; omega⟩
    have hty := A.typed B hr (t := t) hl h1 (hid e (by simp))
    refine step_single_gone (nowTs := nowTs) B.now ?_ (A.auth B hr)
    unfold PlaceOrderArgs.order
    rw [req_true hty, ok_bind, req_true (show (asSingle σ c t limit e).priceLots ≥ 1 from h2), ok_bind]
    show (match tifFromExpiry nowTs e.2.2.expiry with | none => _ | some tif => _) = _
    rw [h3]; rfl
  | cons e es os tif p h1 h2 h3 h4 _ ih =>
    simp only [multiLoop, bind_ok] at h
    obtain ⟨o', hbo, ⟨r, book1, g1⟩, hn, cost, hcost, ⟨b1, q1⟩, hadd, ⟨rs', x⟩, hrec, h⟩ := h
    simp only [pure_ok] at h
    injection h with _ e2
    subst e2
    have hty := A.typed B hr (t := t) hl h1 (hid e (by simp))
    have hpt : OrderTyped ({ side := e.1, maxBaseLots := 0, maxQuoteLotsIncludingFees := e.2.2.maxQuoteLots, clientOrderId := e.2.1, timeInForce := tif, selfTradeBehavior := .cancelProvide, params := p } : Order) := by
      have := multiOrders_typed (t := t) (now := nowTs) (side := e.1) (i := e.2.1) (as := [e.2.2]) (os := [_]) (by
        simp only [multiOrders, bind_ok, req_ok]
        refine ⟨(), h1, (), h2, ?_⟩
        rw [h3]
        simp only [bind_ok, pure_ok]
        exact ⟨p, h4, [], rfl, rfl⟩)
      exact (this _ (List.mem_singleton.mpr rfl)).1
    obtain ⟨hq0, hask, hbid⟩ := A.bound B hr hbo
    obtain ⟨σ1, d1, hplace, A1⟩ := A.next B hr hpt hbo hn hcost hadd (by simp only [List.length_cons] at hpen; omega)
    obtain ⟨σ', d', n', i1, i2, i3⟩ := ih A1 (fun e he => hid e (by simp [he])) (by simp only [List.length_cons] at hpen; omega) hrec
    refine ⟨σ', d', n', .cons _ _ _ _ _ ?_ i1, i2, by simp only [List.length_cons]; omega⟩
    refine step_single (nowTs := nowTs) (o := o') B.now ?_ hplace
    unfold PlaceOrderArgs.order
    rw [req_true hty, ok_bind, req_true (show (asSingle σ c t limit e).priceLots ≥ 1 from h2), ok_bind]
    show (match tifFromExpiry nowTs e.2.2.expiry with | none => _ | some tif => _) = _
    rw [h3]
    show (do let p ← orderParams t e.2.2.priceLots; _) = _
    rw [h4, ok_bind]
    obtain ⟨side, i, arg⟩ := e
    cases side
    · rw [hbid rfl]; rfl
    · rw [hask rfl]; rfl

end Alike

end OB
