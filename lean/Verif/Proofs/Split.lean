import Verif.Proofs.Accts
import Verif.Model.Book
/-! Placing an order does the same whether earlier orders of the account have been paid for already or not (C87). -/
namespace OB

/-- Whenever the first computation succeeds, the second does, with related results. -/
def Follows {α β : Type} (Q : α → β → Prop) (x : R α) (y : R β) : Prop := ∀ v, x = .ok v → ∃ w, y = .ok w ∧ Q v w

namespace Follows

theorem ret {α β : Type} {Q : α → β → Prop} {v : α} {w : β} (h : Q v w) : Follows Q (.ok v) (.ok w) := by
  intro v' hv; cases hv; exact ⟨w, rfl, h⟩

theorem err {α β : Type} {Q : α → β → Prop} {e : Err} {y : R β} : Follows Q (.error e : R α) y := by
  intro v h; cases h

theorem bind {α β γ δ : Type} {Q : α → β → Prop} {P : γ → δ → Prop} {x : R α} {y : R β} {f : α → R γ} {g : β → R δ} (h : Follows Q x y)
    (hf : ∀ v w, x = .ok v → Q v w → Follows P (f v) (g w)) : Follows P (x >>= f) (y >>= g) := by
  intro v hv
  rw [bind_ok] at hv
  obtain ⟨a, ha, hv⟩ := hv
  obtain ⟨b, hb, hq⟩ := h a ha
  obtain ⟨w, hw, hp⟩ := hf a b ha hq v hv
  exact ⟨w, by rw [hb]; exact hw, hp⟩

theorem same {α γ δ : Type} {P : γ → δ → Prop} {x : R α} {f : α → R γ} {g : α → R δ}
    (hf : ∀ v, x = .ok v → Follows P (f v) (g v)) : Follows P (x >>= f) (x >>= g) :=
  bind (Q := fun v w => x = .ok v ∧ w = v) (fun v hv => ⟨v, hv, hv, rfl⟩) (fun v w _ h => by rw [h.2]; exact hf v h.1)

theorem mono {α β : Type} {Q Q' : α → β → Prop} {x : R α} {y : R β} (h : Follows Q x y) (hq : ∀ v w, Q v w → Q' v w) : Follows Q' x y := by
  intro v hv; obtain ⟨w, hw, h⟩ := h v hv; exact ⟨w, hw, hq _ _ h⟩

end Follows

/-- How two ledgers differ: the free balances of an account are smaller, its penalties and the deposit totals larger. -/
structure Gap where
  base : Int
  quote : Int
  pen : Int
  depBase : Int
  depQuote : Int

structure Gap.Ok (d : Gap) : Prop where
  base : 0 ≤ d.base
  quote : 0 ≤ d.quote

def OOA.gap (d : Gap) (a : OOA) : OOA :=
  { a with position := { a.position with baseFreeNative := a.position.baseFreeNative - d.base,
                                         quoteFreeNative := a.position.quoteFreeNative - d.quote,
                                         penaltyHeapCount := a.position.penaltyHeapCount + d.pen } }

def Market.gap (d : Gap) (m : Market) : Market :=
  { m with baseDepositTotal := m.baseDepositTotal + d.depBase, quoteDepositTotal := m.quoteDepositTotal + d.depQuote }

def Accts.gap (k : Pubkey) (d : Gap) (as : Accts) : Accts := as.map (fun x => if x.1 = k then (x.1, x.2.gap d) else x)

def Ledger.gap (k : Pubkey) (d : Gap) (g : Ledger) : Ledger := { market := g.market.gap d, heap := g.heap, accts := g.accts.gap k d }

/-- The free balances cover the difference. -/
structure GapIn (d : Gap) (a : OOA) : Prop where
  base : d.base ≤ a.position.baseFreeNative
  quote : d.quote ≤ a.position.quoteFreeNative

theorem Accts.gap_get? (k : Pubkey) (d : Gap) (as : Accts) (j : Pubkey) :
    (as.gap k d).get? j = (as.get? j).map (fun a => if j = k then a.gap d else a) := by
  induction as with
  | nil => rfl
  | cons x xs ih =>
    unfold Accts.gap at ih ⊢
    rw [List.map_cons, Accts.get?_cons, Accts.get?_cons, ih]
    by_cases hx : x.1 = k
    · rw [if_pos hx]
      by_cases hj : x.1 = j
      · rw [if_pos hj, if_pos hj]; simp [← hj, hx]
      · rw [if_neg hj, if_neg hj]
    · rw [if_neg hx]
      by_cases hj : x.1 = j
      · rw [if_pos hj, if_pos hj]; simp [← hj, hx]
      · rw [if_neg hj, if_neg hj]

theorem Accts.gap_get_self {k : Pubkey} {d : Gap} {as : Accts} :
    Follows (fun a a' => as.get? k = some a ∧ a' = a.gap d) (as.get k) ((as.gap k d).get k) := by
  intro a h
  rw [Accts.get_ok] at h
  exact ⟨a.gap d, by rw [Accts.get_ok, Accts.gap_get?, h]; simp, h, rfl⟩

theorem Accts.gap_get_ne {k j : Pubkey} (hj : j ≠ k) {d : Gap} {as : Accts} :
    Follows (fun a a' => as.get? j = some a ∧ a' = a) (as.get j) ((as.gap k d).get j) := by
  intro a h
  rw [Accts.get_ok] at h
  exact ⟨a, by rw [Accts.get_ok, Accts.gap_get?, h]; simp [hj], h, rfl⟩

theorem Accts.gap_set_self (k : Pubkey) (d : Gap) (as : Accts) (a : OOA) : (as.gap k d).set k (a.gap d) = (as.set k a).gap k d := by
  induction as with
  | nil => rfl
  | cons x xs ih =>
    unfold Accts.gap at ih ⊢
    by_cases hx : x.1 = k
    · simp [Accts.set, hx]
    · simp [Accts.set, hx, ih]

theorem Accts.gap_set_ne {k j : Pubkey} (hj : j ≠ k) (d : Gap) (as : Accts) (a : OOA) : (as.gap k d).set j a = (as.set j a).gap k d := by
  induction as with
  | nil => rfl
  | cons x xs ih =>
    unfold Accts.gap at ih ⊢
    by_cases hx : x.1 = k
    · have : x.1 ≠ j := fun h => hj (h.symm.trans hx)
      have h2 : k ≠ j := fun h => hj h.symm
      simp [Accts.set, hx, h2, ih]
    · by_cases h2 : x.1 = j
      · simp [Accts.set, h2, hj]
      · simp [Accts.set, hx, h2, ih]

/-! ### one account -/

theorem asU64_nonneg' (x : Int) : 0 ≤ asU64 x := by unfold asU64; omega

theorem ckU64_gap {x y d : Int} (hd : 0 ≤ d) (hx : d ≤ x) (hy : 0 ≤ y) :
    Follows (fun v w => w = v - d ∧ d ≤ v ∧ v = x + y) (ckU64 (x + y)) (ckU64 (x - d + y)) := by
  intro v hv
  rw [ckU64_ok] at hv
  obtain ⟨h, rfl⟩ := hv
  exact ⟨x - d + y, ckU64_eq (by omega) (by omega), by omega, by omega, rfl⟩

theorem removeOrder_gap {d : Gap} {a : OOA} (ha : GapIn d a) (slot : Nat) (q p : Int) :
    Follows (fun x y => GapIn d x ∧ y = x.gap d) (a.removeOrder slot q p) ((a.gap d).removeOrder slot q p) := by
  unfold OOA.removeOrder
  refine Follows.same fun oo _ => Follows.same fun _ _ => ?_
  refine Follows.bind (Q := fun x y => x.baseFreeNative = a.position.baseFreeNative ∧ x.quoteFreeNative = a.position.quoteFreeNative ∧
    y = { x with baseFreeNative := x.baseFreeNative - d.base, quoteFreeNative := x.quoteFreeNative - d.quote,
                 penaltyHeapCount := x.penaltyHeapCount + d.pen }) ?_ ?_
  · cases oo.side
    · exact Follows.same fun _ _ => Follows.same fun _ _ => Follows.same fun _ _ => Follows.ret ⟨rfl, rfl, rfl⟩
    · exact Follows.same fun _ _ => Follows.ret ⟨rfl, rfl, rfl⟩
  · rintro x y - ⟨h1, h2, rfl⟩
    exact Follows.ret ⟨⟨by show _ ≤ x.baseFreeNative; rw [h1]; exact ha.base, by show _ ≤ x.quoteFreeNative; rw [h2]; exact ha.quote⟩, rfl⟩

theorem cancelOrder_gap {d : Gap} (hd : d.Ok) {a : OOA} (ha : GapIn d a) (slot : Nat) (q : Int) (m : Market) :
    Follows (fun x y => GapIn d x ∧ y = x.gap d) (a.cancelOrder slot q m) ((a.gap d).cancelOrder slot q (m.gap d)) := by
  unfold OOA.cancelOrder
  refine Follows.same fun oo _ => Follows.same fun _ _ => Follows.same fun _ _ => Follows.same fun _ _ => Follows.same fun fees _ => ?_
  refine Follows.bind (Q := fun x y => d.base ≤ x.baseFreeNative ∧ d.quote ≤ x.quoteFreeNative ∧
    y = { x with baseFreeNative := x.baseFreeNative - d.base, quoteFreeNative := x.quoteFreeNative - d.quote,
                 penaltyHeapCount := x.penaltyHeapCount + d.pen }) ?_ ?_
  · cases oo.side
    · refine Follows.same fun y hy => Follows.bind (ckU64_gap hd.quote ha.quote ?_) ?_
      · rw [ckU64_ok] at hy; omega
      · rintro v w - ⟨rfl, h1, h2⟩
        exact Follows.same fun _ _ => Follows.ret ⟨ha.base, h1, rfl⟩
    · refine Follows.bind (ckU64_gap hd.base ha.base (asU64_nonneg' _)) ?_
      rintro v w - ⟨rfl, h1, h2⟩
      exact Follows.ret ⟨h1, ha.quote, rfl⟩
  · rintro x y - ⟨h1, h2, rfl⟩
    exact removeOrder_gap (a := { a with position := x }) ⟨h1, h2⟩ slot q _

theorem executeTaker_gap {d : Gap} (hd : d.Ok) {a : OOA} (ha : GapIn d a) (m : Market) (side : Side) {bn qn f r : Int} (hb : 0 ≤ bn) :
    Follows (fun x y => GapIn d x.1 ∧ y = (x.1.gap d, x.2.gap d)) (a.executeTaker m side bn qn f r) ((a.gap d).executeTaker (m.gap d) side bn qn f r) := by
  unfold OOA.executeTaker
  refine Follows.bind (Q := fun x y => d.base ≤ x.baseFreeNative ∧ d.quote ≤ x.quoteFreeNative ∧
    y = { x with baseFreeNative := x.baseFreeNative - d.base, quoteFreeNative := x.quoteFreeNative - d.quote,
                 penaltyHeapCount := x.penaltyHeapCount + d.pen }) ?_ ?_
  · cases side
    · refine Follows.bind (ckU64_gap hd.base ha.base hb) ?_
      rintro v w - ⟨rfl, h1, h2⟩
      exact Follows.ret ⟨h1, ha.quote, rfl⟩
    · refine Follows.same fun y hy => Follows.bind (ckU64_gap hd.quote ha.quote ?_) ?_
      · rw [ckU64_ok] at hy; omega
      · rintro v w - ⟨rfl, h1, h2⟩
        exact Follows.ret ⟨ha.base, h1, rfl⟩
  · rintro x y - ⟨h1, h2, rfl⟩
    exact Follows.same fun _ _ => Follows.same fun _ _ => Follows.same fun _ _ => Follows.ret ⟨⟨h1, h2⟩, rfl⟩

theorem addOrder_gap {d : Gap} {a : OOA} (ha : GapIn d a) (side : Side) (c : Comp) (l : LeafNode) (i : Nat) (p : Int) :
    Follows (fun x y => GapIn d x ∧ y = x.gap d) (a.addOrder side c l i p) ((a.gap d).addOrder side c l i p) := by
  unfold OOA.addOrder
  refine Follows.bind (Q := fun x y => d.base ≤ x.baseFreeNative ∧ d.quote ≤ x.quoteFreeNative ∧
    y = { x with baseFreeNative := x.baseFreeNative - d.base, quoteFreeNative := x.quoteFreeNative - d.quote,
                 penaltyHeapCount := x.penaltyHeapCount + d.pen }) ?_ ?_
  · cases side
    · exact Follows.same fun _ _ => Follows.same fun _ _ => Follows.same fun _ _ => Follows.ret ⟨ha.base, ha.quote, rfl⟩
    · exact Follows.same fun _ _ => Follows.ret ⟨ha.base, ha.quote, rfl⟩
  · rintro x y - ⟨h1, h2, rfl⟩
    exact Follows.same fun _ _ => Follows.ret ⟨⟨h1, h2⟩, rfl⟩

theorem executeMaker_gap (d : Gap) (a : OOA) (m : Market) (f : FillEvent) :
    Follows (fun x y => y = (x.1, x.2.gap d)) (a.executeMaker m f) (a.executeMaker (m.gap d) f) := by
  unfold OOA.executeMaker
  refine Follows.same fun _ _ => Follows.same fun _ _ => ?_
  dsimp only
  by_cases h : f.maker = f.taker
  · simp only [if_pos h]
    refine Follows.same (x := OOA.lockedAmounts m f _ _ _) fun _ _ => ?_
    refine Follows.same fun _ _ => Follows.same fun _ _ => Follows.same fun _ _ => Follows.same fun _ _ => ?_
    refine Follows.same fun _ _ => Follows.same fun _ _ => Follows.same fun _ _ => ?_
    split
    · exact Follows.same (x := m.takerFeesCeil _) fun _ _ => Follows.ret rfl
    · exact Follows.ret rfl
  · simp only [if_neg h]
    refine Follows.same (x := m.makerFeesFloor _) fun _ _ => Follows.same (x := m.makerRebateFloor _) fun _ _ => ?_
    refine Follows.same (x := OOA.lockedAmounts m f _ _ _) fun _ _ => ?_
    refine Follows.same fun _ _ => Follows.same fun _ _ => Follows.same fun _ _ => Follows.same fun _ _ => ?_
    refine Follows.same fun _ _ => Follows.same fun _ _ => Follows.same fun _ _ => ?_
    split
    · exact Follows.same (x := m.takerFeesCeil _) fun _ _ => Follows.ret rfl
    · exact Follows.ret rfl

/-! ### the ledger -/

/-- The account `k` has the balances that differ. -/
def HasGap (k : Pubkey) (d : Gap) (g : Ledger) : Prop := ∀ a, g.accts.get? k = some a → GapIn d a

theorem HasGap.set_self {k : Pubkey} {d : Gap} {as : Accts} {a : OOA} (ha : GapIn d a) :
    ∀ x, (as.set k a).get? k = some x → GapIn d x := by
  intro x hx
  rw [Accts.get?_set, if_pos rfl] at hx
  cases h : as.get? k with
  | none => rw [h] at hx; cases hx
  | some y => rw [h] at hx; cases hx; exact ha

theorem HasGap.set_ne {k j : Pubkey} (hj : j ≠ k) {d : Gap} {as : Accts} {a : OOA} (h : ∀ x, as.get? k = some x → GapIn d x) :
    ∀ x, (as.set j a).get? k = some x → GapIn d x := by
  intro x hx
  rw [Accts.get?_set_ne _ (fun h => hj h.symm)] at hx
  exact h x hx

theorem processOut_gap {k : Pubkey} {d : Gap} (hd : d.Ok) {g : Ledger} (hg : HasGap k d g) (ev : OutEvent) (rem : List Pubkey) :
    Follows (fun x y => HasGap k d x ∧ y = x.gap k d) (processOutEvent ev true k rem g) (processOutEvent ev true k rem (g.gap k d)) := by
  unfold processOutEvent
  by_cases h : k = ev.owner
  · subst h
    rw [if_pos ⟨rfl, rfl⟩, if_pos ⟨rfl, rfl⟩]
    refine Follows.bind Accts.gap_get_self ?_
    rintro a a' - ⟨ha, rfl⟩
    refine Follows.bind (cancelOrder_gap hd (hg a ha) _ _ _) ?_
    rintro x y - ⟨hx, rfl⟩
    exact Follows.ret ⟨HasGap.set_self hx, by unfold Ledger.gap; simp only [Accts.gap_set_self]⟩
  · have hn : ¬ (true = true ∧ k = ev.owner) := fun x => h x.2
    rw [if_neg hn, if_neg hn]
    by_cases hm : ev.owner ∈ rem
    · rw [if_pos hm, if_pos hm]
      have hne : ev.owner ≠ k := fun e => h e.symm
      refine Follows.bind (Accts.gap_get_ne hne) ?_
      rintro a a' - ⟨ha, rfl⟩
      refine Follows.same (x := a'.cancelOrder _ _ g.market) fun x _ => ?_
      exact Follows.ret ⟨HasGap.set_ne hne hg, by unfold Ledger.gap; simp only [Accts.gap_set_ne hne]⟩
    · rw [if_neg hm, if_neg hm]
      exact Follows.same fun _ _ => Follows.ret ⟨hg, rfl⟩

theorem processFill_gap {k : Pubkey} {d : Gap} {g : Ledger} (hg : HasGap k d g) (ev : FillEvent) (rem : List Pubkey) (n : Nat) :
    Follows (fun x y => HasGap k d x.1 ∧ y = (x.1.gap k d, x.2)) (processFillEvent ev true k rem g n)
      (processFillEvent ev true k rem (g.gap k d) n) := by
  unfold processFillEvent
  split
  · by_cases h : k = ev.maker
    · rw [if_pos ⟨rfl, h⟩]; exact Follows.err
    · have hn : ¬ (true = true ∧ k = ev.maker) := fun x => h x.2
      rw [if_neg hn, if_neg hn]
      have hne : ev.maker ≠ k := fun e => h e.symm
      refine Follows.bind (Accts.gap_get_ne hne) ?_
      rintro a a' - ⟨ha, rfl⟩
      refine Follows.bind (executeMaker_gap d a' g.market ev) ?_
      rintro x y - rfl
      exact Follows.ret ⟨HasGap.set_ne hne hg, by unfold Ledger.gap; simp only [Accts.gap_set_ne hne]⟩
  · exact Follows.same fun _ _ => Follows.ret ⟨hg, rfl⟩

/-! ### matching -/

def MatchSt.gap (k : Pubkey) (d : Gap) (s : MatchSt) : MatchSt := { s with g := s.g.gap k d }

/-- The environment of an order placed for the account `k`. -/
structure PlacesFor (k : Pubkey) (env : Env) : Prop where
  has : env.hasOO = true
  owner : env.owner = k

theorem matchFill_gap {k : Pubkey} {d : Gap} {env : Env} (he : PlacesFor k env) {s : MatchSt} (hg : HasGap k d s.g) (item : IterItem) (b q : Int) :
    Follows (fun x y => HasGap k d x.g ∧ y = x.gap k d) (matchFill env item b q s) (matchFill env item b q (s.gap k d)) := by
  unfold matchFill
  rw [he.has, he.owner]
  refine Follows.same fun _ _ => Follows.same fun _ _ => Follows.same fun _ _ => Follows.same fun n _ => ?_
  refine Follows.bind (processFill_gap hg _ env.rem s.processed) ?_
  rintro x y - ⟨hx, rfl⟩
  exact Follows.same fun _ _ => Follows.ret ⟨hx, rfl⟩

theorem matchStep_gap {k : Pubkey} {d : Gap} (hd : d.Ok) {env : Env} (he : PlacesFor k env) {s : MatchSt} (hg : HasGap k d s.g) (p : Int) (item : IterItem) :
    Follows (fun x y => HasGap k d x.2.g ∧ y = (x.1, x.2.gap k d)) (matchStep env p item s) (matchStep env p item (s.gap k d)) := by
  unfold matchStep
  simp only [show (s.gap k d).remBase = s.remBase from rfl, show (s.gap k d).remQuote = s.remQuote from rfl,
    show (s.gap k d).dropped = s.dropped from rfl, show (s.gap k d).limit = s.limit from rfl, show (s.gap k d).g = s.g.gap k d from rfl,
    show (s.gap k d).decr = s.decr from rfl, show (s.gap k d).rebates = s.rebates from rfl]
  split
  · exact Follows.ret ⟨hg, rfl⟩
  split
  · split
    · rw [he.has, he.owner]
      refine Follows.bind (processOut_gap hd hg _ env.rem) ?_
      rintro x y - ⟨hx, rfl⟩
      exact Follows.ret ⟨hx, rfl⟩
    · exact Follows.ret ⟨hg, rfl⟩
  split
  · exact Follows.ret ⟨hg, rfl⟩
  split
  · exact Follows.ret ⟨hg, rfl⟩
  split
  · exact Follows.ret ⟨hg, rfl⟩
  refine Follows.same fun _ _ => ?_
  split
  · exact Follows.ret ⟨hg, rfl⟩
  refine Follows.same fun _ _ => ?_
  split
  · split
    · refine Follows.same fun decr _ => ?_
      refine Follows.bind (matchFill_gap he (s := { s with decr }) hg item _ _) ?_
      rintro x y - ⟨hx, rfl⟩
      exact Follows.ret ⟨hx, rfl⟩
    · rw [he.owner]
      refine Follows.bind Accts.gap_get_self ?_
      rintro a a' - ⟨ha, rfl⟩
      refine Follows.bind (cancelOrder_gap hd (hg a ha) _ _ _) ?_
      rintro x y - ⟨hx, rfl⟩
      exact Follows.ret ⟨HasGap.set_self hx, by unfold MatchSt.gap Ledger.gap; simp only [Accts.gap_set_self]⟩
    · exact Follows.err
  · refine Follows.same fun _ _ => Follows.same fun _ _ => Follows.same fun rebates _ => ?_
    refine Follows.bind (matchFill_gap he (s := { s with rebates }) hg item _ _) ?_
    rintro x y - ⟨hx, rfl⟩
    exact Follows.ret ⟨hx, rfl⟩

theorem matchLoop_gap {k : Pubkey} {d : Gap} (hd : d.Ok) {env : Env} (he : PlacesFor k env) (p : Int) (t : Nodes) (n : Nat) (it : SideIter) {s : MatchSt}
    (hg : HasGap k d s.g) :
    Follows (fun x y => HasGap k d x.g ∧ y = x.gap k d) (matchLoop env p t n it s) (matchLoop env p t n it (s.gap k d)) := by
  induction n generalizing it s with
  | zero => exact Follows.err
  | succ n ih =>
    unfold matchLoop
    refine Follows.same fun x _ => ?_
    cases x with
    | none => exact Follows.ret ⟨hg, rfl⟩
    | some x =>
      obtain ⟨item, it'⟩ := x
      simp only
      refine Follows.bind (matchStep_gap hd he hg p item) ?_
      rintro ⟨go, s1⟩ y - ⟨hx, rfl⟩
      simp only
      split
      · exact ih it' hx
      · exact Follows.ret ⟨hx, rfl⟩

theorem takerAccounting_gap {k : Pubkey} {d : Gap} (hd : d.Ok) {env : Env} (he : PlacesFor k env) (mq : Int) {s : MatchSt} (hg : HasGap k d s.g) :
    Follows (fun x y => HasGap k d x.2.2.2.2.2 ∧ y = (x.1, x.2.1, x.2.2.1, x.2.2.2.1, x.2.2.2.2.1, x.2.2.2.2.2.gap k d))
      (takerAccounting env mq s) (takerAccounting env mq (s.gap k d)) := by
  unfold takerAccounting
  refine Follows.same fun _ _ => Follows.same fun _ _ => Follows.same fun _ _ => Follows.same fun _ _ => ?_
  refine Follows.same fun _ _ => Follows.same fun _ _ => ?_
  split
  · refine Follows.same fun _ _ => Follows.same fun _ _ => ?_
    refine Follows.bind (Q := fun x y => y = (x.1, x.2.1, x.2.2.gap d)) ?_ ?_
    · split
      · exact Follows.same fun _ _ => Follows.same fun _ _ => Follows.same fun _ _ => Follows.ret rfl
      · exact Follows.ret rfl
    rintro ⟨fees, ref, m1⟩ y - rfl
    simp only
    rw [he.has, he.owner]
    refine Follows.bind (Q := fun x y => HasGap k d x ∧ y = x.gap k d) ?_ ?_
    · rw [if_pos rfl, if_pos rfl]
      refine Follows.bind Accts.gap_get_self ?_
      rintro a a' - ⟨ha, rfl⟩
      refine Follows.bind (executeTaker_gap hd (hg a ha) m1 _ (asU64_nonneg' _)) ?_
      rintro ⟨x, m2⟩ y - ⟨hx, rfl⟩
      exact Follows.ret ⟨HasGap.set_self hx, by unfold MatchSt.gap Ledger.gap; simp only [Accts.gap_set_self]⟩
    · rintro x y - ⟨hx, rfl⟩
      exact Follows.same fun _ _ => Follows.ret ⟨hx, rfl⟩
  · exact Follows.ret ⟨hg, rfl⟩

/-! ### posting -/

theorem makeRoom_gap {k : Pubkey} {d : Gap} (hd : d.Ok) {env : Env} (he : PlacesFor k env) (p : Int) (c : Comp) (b : BookSide) {g : Ledger} (hg : HasGap k d g) :
    Follows (fun x y => HasGap k d x.2.1 ∧ y = (x.1, x.2.1.gap k d, x.2.2)) (makeRoom env p c b g) (makeRoom env p c b (g.gap k d)) := by
  unfold makeRoom
  rw [he.owner]
  dsimp only
  refine Follows.same fun x _ => ?_
  refine Follows.bind (Q := fun (x y : BookSide × Ledger × List OutEvent) => HasGap k d x.2.1 ∧ y = (x.1, x.2.1.gap k d, x.2.2)) ?_ ?_
  · cases x with
    | none => exact Follows.ret ⟨hg, rfl⟩
    | some x =>
      obtain ⟨l, b1⟩ := x
      simp only
      refine Follows.bind (processOut_gap hd hg _ env.rem) ?_
      rintro x y - ⟨hx, rfl⟩
      exact Follows.ret ⟨hx, rfl⟩
  · rintro ⟨b1, g1, outs⟩ y - ⟨hx, rfl⟩
    simp only
    split
    · refine Follows.same fun x _ => Follows.same fun x _ => Follows.same fun _ _ => ?_
      refine Follows.bind (processOut_gap hd hx _ env.rem) ?_
      rintro z y - ⟨hz, rfl⟩
      exact Follows.ret ⟨hz, rfl⟩
    · exact Follows.ret ⟨hx, rfl⟩

theorem postOrder_gap {k : Pubkey} {d : Gap} (hd : d.Ok) {env : Env} (he : PlacesFor k env) (id : Nat) (p price q : Int) (c : Comp) (b : BookSide) {g : Ledger}
    (hg : HasGap k d g) :
    Follows (fun x y => HasGap k d x.2.1 ∧ y = (x.1, x.2.1.gap k d, x.2.2)) (postOrder env id p price q c b g)
      (postOrder env id p price q c b (g.gap k d)) := by
  unfold postOrder
  refine Follows.same fun _ _ => Follows.same (x := req (g.market.maxQuoteLots ≥ _) _) fun _ _ => Follows.same fun _ _ => Follows.same fun _ _ => ?_
  refine Follows.same fun _ _ => ?_
  rw [he.owner]
  refine Follows.bind Accts.gap_get_self ?_
  rintro a a' - ⟨ha, rfl⟩
  refine Follows.bind (Q := fun x y => GapIn d x.2 ∧ y = (x.1, x.2.gap d)) ?_ ?_
  · split
    · exact Follows.same fun _ _ => Follows.same fun _ _ => Follows.same fun _ _ => Follows.ret ⟨⟨(hg a ha).base, (hg a ha).quote⟩, rfl⟩
    · exact Follows.ret ⟨hg a ha, rfl⟩
  rintro ⟨f, a1⟩ y - ⟨h1, rfl⟩
  simp only
  have e : ({ (g.gap k d) with accts := (g.gap k d).accts.set k (a1.gap d) } : Ledger) =
      ({ g with accts := g.accts.set k a1 } : Ledger).gap k d := by
    unfold Ledger.gap; simp only [Accts.gap_set_self]
  rw [e]
  refine Follows.bind (makeRoom_gap hd he p c b (HasGap.set_self h1)) ?_
  rintro ⟨b1, g2, outs⟩ y - ⟨hx, rfl⟩
  simp only
  refine Follows.bind Accts.gap_get_self ?_
  rintro a2 a2' - ⟨ha2, rfl⟩
  refine Follows.same (x := a2.nextOrderSlot) fun slot _ => Follows.same fun _ _ => ?_
  refine Follows.bind (addOrder_gap (hx a2 ha2) _ _ _ _ _) ?_
  rintro a3 y - ⟨h3, rfl⟩
  exact Follows.ret ⟨HasGap.set_self h3, by unfold Ledger.gap; simp only [Accts.gap_set_self]⟩

/-- Placing an order does the same when the account has less free balance. -/
theorem newOrder_gap {k : Pubkey} {d : Gap} (hd : d.Ok) {env : Env} (he : PlacesFor k env) (book : Book) {g : Ledger} (hg : HasGap k d g) :
    Follows (fun x y => HasGap k d x.2.2 ∧ y = (x.1, x.2.1, x.2.2.gap k d)) (newOrder env book g) (newOrder env book (g.gap k d)) := by
  unfold newOrder
  refine Follows.same fun x _ => ?_
  obtain ⟨p, data⟩ := x
  simp only
  refine Follows.same (x := assertR (g.market.seqNum < 18446744073709551615)) fun _ _ => ?_
  split
  · refine Follows.same (x := g.market.subtractTakerFees env.order.maxQuoteLotsIncludingFees) fun mq _ => ?_
    refine Follows.same (x := req (g.market.maxBaseLots ≥ env.order.maxBaseLots) _) fun _ _ => ?_
    refine Follows.same (x := req (g.market.maxQuoteLots ≥ mq) _) fun _ _ => ?_
    refine Follows.same fun it _ => ?_
    refine Follows.bind (matchLoop_gap hd he p (book.side env.order.side.invert).nodes (2 * Nodes.fuel) it
      (s := { remBase := env.order.maxBaseLots, remQuote := mq, decr := 0, rebates := 0, changes := [], deletes := [],
              dropped := 0, processed := 0, limit := env.limit, postTarget := env.order.postTarget,
              g := (⟨{ g.market with seqNum := g.market.seqNum + 1 }, g.heap, g.accts⟩ : Ledger), fills := [], outs := [] }) hg) ?_
    rintro s y - ⟨hs, rfl⟩
    refine Follows.bind (takerAccounting_gap hd he mq hs) ?_
    rintro ⟨bn, qn, fees, ref, qt, g1⟩ y - ⟨h1, rfl⟩
    simp only
    refine Follows.same (x := ckI64 (asI64 fees + g.market.quoteLotSize)) fun _ _ => Follows.same fun _ _ => ?_
    refine Follows.same fun _ _ => Follows.same (x := ckI64 (_ - Int.tdiv _ g.market.quoteLotSize)) fun rq _ => ?_
    refine Follows.same (x := applyChanges _ s.changes) fun _ _ => Follows.same (x := applyDeletes _ s.deletes) fun _ _ => ?_
    refine Follows.same (x := postDecision env g1.market p s.remBase rq s.postTarget) fun x _ => ?_
    obtain ⟨target, qty⟩ := x
    cases target with
    | none => exact Follows.ret ⟨h1, rfl⟩
    | some c =>
      simp only
      refine Follows.bind (postOrder_gap hd he _ p _ qty c _ h1) ?_
      rintro ⟨own, g2, pb, pq, mf, outs⟩ y - ⟨h2, rfl⟩
      exact Follows.ret ⟨h2, rfl⟩
  · refine Follows.same (x := req (g.market.maxBaseLots ≥ env.order.maxBaseLots) _) fun _ _ => ?_
    refine Follows.same (x := req (g.market.maxQuoteLots ≥ env.order.maxQuoteLotsIncludingFees) _) fun _ _ => ?_
    refine Follows.same fun it _ => ?_
    refine Follows.bind (matchLoop_gap hd he p (book.side env.order.side.invert).nodes (2 * Nodes.fuel) it
      (s := { remBase := env.order.maxBaseLots, remQuote := env.order.maxQuoteLotsIncludingFees, decr := 0, rebates := 0, changes := [], deletes := [],
              dropped := 0, processed := 0, limit := env.limit, postTarget := env.order.postTarget,
              g := (⟨{ g.market with seqNum := g.market.seqNum + 1 }, g.heap, g.accts⟩ : Ledger), fills := [], outs := [] }) hg) ?_
    rintro s y - ⟨hs, rfl⟩
    refine Follows.bind (takerAccounting_gap hd he env.order.maxQuoteLotsIncludingFees hs) ?_
    rintro ⟨bn, qn, fees, ref, qt, g1⟩ y - ⟨h1, rfl⟩
    simp only
    refine Follows.same (x := ckI64 (asI64 fees + g.market.quoteLotSize)) fun _ _ => Follows.same fun _ _ => ?_
    refine Follows.same fun _ _ => Follows.same (x := ckI64 (_ - Int.tdiv _ g.market.quoteLotSize)) fun rq _ => ?_
    refine Follows.same (x := applyChanges _ s.changes) fun _ _ => Follows.same (x := applyDeletes _ s.deletes) fun _ _ => ?_
    refine Follows.same (x := postDecision env g1.market p s.remBase rq s.postTarget) fun x _ => ?_
    obtain ⟨target, qty⟩ := x
    cases target with
    | none => exact Follows.ret ⟨h1, rfl⟩
    | some c =>
      simp only
      refine Follows.bind (postOrder_gap hd he _ p _ qty c _ h1) ?_
      rintro ⟨own, g2, pb, pq, mf, outs⟩ y - ⟨h2, rfl⟩
      exact Follows.ret ⟨h2, rfl⟩

end OB
