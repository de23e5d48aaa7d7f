import Verif.Proofs.OOA
import Verif.Proofs.FeeFun
import Verif.Model.Keys
/-!
Obligations: what the market owes to makers.  A resting order, a queued out event and a queued fill are the three kinds.  Each
account's locked balances are sums over its obligations.
-/
namespace OB

/-- `oo` is the order slot the obligation will free (no meaning for a fill that does not take the maker order out). -/
inductive Obl
  | rest (s : Side) (c : Comp) (l : LeafNode) (oo : OpenOrder)
  | out (e : OutEvent) (oo : OpenOrder)
  | fill (f : FillEvent) (oo : OpenOrder)

namespace Obl

def acct : Obl → Pubkey
  | rest _ _ l _ => l.owner
  | out e _ => e.owner
  | fill f _ => f.maker

def slot : Obl → Nat
  | rest _ _ l _ => l.ownerSlot
  | out e _ => e.ownerSlot
  | fill f _ => f.makerSlot

def oo : Obl → OpenOrder
  | rest _ _ _ o => o
  | out _ o => o
  | fill _ o => o

/-- Frees its slot. -/
def term : Obl → Bool
  | rest _ _ _ _ => true
  | out _ _ => true
  | fill f _ => f.makerOut

def side : Obl → Side
  | rest s _ _ _ => s
  | out e _ => e.side
  | fill f _ => f.takerSide.invert

def qty : Obl → Int
  | rest _ _ l _ => l.quantity
  | out e _ => e.quantity
  | fill f _ => f.quantity

/-- The price funds are locked at. -/
def lp : Obl → Int
  | rest _ _ _ o => o.lockedPrice
  | out _ o => o.lockedPrice
  | fill f _ => fillLockPrice f

/-- Maker fee that has to be locked for the obligation. -/
def need (m : Market) : Obl → Int
  | fill f _ => floorFee m.makerFee (f.quantity * fillLockPrice f * m.quoteLotSize)
  | o => ceilFee m.makerFee (o.qty * o.lp * m.quoteLotSize)

/-- Rebate of a fill. -/
def _root_.OB.FillEvent.rebate (m : Market) (f : FillEvent) : Int :=
  if f.maker = f.taker then 0 else floorRebate m.makerFee (f.quantity * f.price * m.quoteLotSize)

/-- Base which changes hands when the obligation is delivered: held for nobody (positive) or promised twice (negative). -/
def pendB (m : Market) : Obl → Int
  | fill f _ => match f.takerSide with
    | .ask => f.quantity * m.baseLotSize
    | .bid => - (f.quantity * m.baseLotSize)
  | _ => 0

/-- The same for quote. -/
def pendQ (m : Market) : Obl → Int
  | fill f _ => match f.takerSide with
    | .ask => f.rebate m - f.quantity * f.price * m.quoteLotSize
    | .bid => f.quantity * f.price * m.quoteLotSize + f.rebate m
  | _ => 0

end Obl

/-- The sequence number in an order id. -/
def seqOf (s : Side) (id : Nat) : Nat :=
  match s with
  | .bid => two64 - 1 - id % two64
  | .ask => id % two64

/-- What is known of a resting order. -/
structure RestOk (s : Side) (c : Comp) (l : LeafNode) (oo : OpenOrder) : Prop where
  key : l.key < 2 ^ 128
  id : oo.id = l.key
  comp : oo.comp = c
  client : oo.clientId = l.clientOrderId
  fixed : c = .fixed → 1 ≤ l.priceData ∧ (l.priceData : Int) ≤ i64Max ∧ l.pegLimit = -1 ∧ oo.lockedPrice = l.priceData
  pegged : c = .pegged → 1 ≤ l.pegLimit ∧ (s = .bid → oo.lockedPrice = l.pegLimit)

structure OblOk (m : Market) (o : Obl) : Prop where
  qty : 1 ≤ o.qty
  lp : 1 ≤ o.lp
  quote : o.qty * o.lp * m.quoteLotSize ≤ i64Max
  base : o.qty * m.baseLotSize ≤ i64Max
  oside : o.term = true → o.oo.side = o.side
  used : o.term = true → o.oo.isFree = false
  rest : ∀ s c l oo, o = .rest s c l oo → RestOk s c l oo
  fill : ∀ f oo, o = .fill f oo → 1 ≤ f.price ∧ f.quantity * f.price * m.quoteLotSize ≤ i64Max ∧
    (f.takerSide = .ask → f.price ≤ fillLockPrice f)

/-- Sums over obligations and accounts. -/
def osum (f : Obl → Int) (O : List Obl) : Int := (O.map f).sum
def asum (f : OOA → Int) (as : Accts) : Int := (as.map (fun x => f x.2)).sum

theorem osum_nil (f : Obl → Int) : osum f [] = 0 := rfl
theorem osum_cons (f : Obl → Int) (o : Obl) (O : List Obl) : osum f (o :: O) = f o + osum f O := by simp [osum]
theorem osum_append (f : Obl → Int) (A B : List Obl) : osum f (A ++ B) = osum f A + osum f B := by simp [osum]
theorem osum_perm (f : Obl → Int) {A B : List Obl} (h : A.Perm B) : osum f A = osum f B := by
  induction h with
  | nil => rfl
  | cons x _ ih => rw [osum_cons, osum_cons, ih]
  | swap x y l => simp only [osum_cons]; omega
  | trans _ _ ih1 ih2 => rw [ih1, ih2]
theorem osum_congr {f g : Obl → Int} {O : List Obl} (h : ∀ o ∈ O, f o = g o) : osum f O = osum g O := by
  unfold osum; rw [List.map_congr_left h]
theorem osum_zero {f : Obl → Int} {O : List Obl} (h : ∀ o ∈ O, f o = 0) : osum f O = 0 := by
  induction O with
  | nil => rfl
  | cons o O ih => rw [osum_cons, h o (by simp), ih (fun o ho => h o (by simp [ho]))]; rfl
theorem osum_nonneg {f : Obl → Int} {O : List Obl} (h : ∀ o ∈ O, 0 ≤ f o) : 0 ≤ osum f O := by
  induction O with
  | nil => exact Int.le_refl 0
  | cons o O ih =>
    rw [osum_cons]
    have := h o (by simp); have := ih (fun o ho => h o (by simp [ho])); omega
theorem osum_mem_le {f : Obl → Int} {O : List Obl} (h : ∀ o ∈ O, 0 ≤ f o) {o : Obl} (ho : o ∈ O) : f o ≤ osum f O := by
  obtain ⟨A, B, rfl⟩ := List.append_of_mem ho
  rw [osum_append, osum_cons]
  have h1 : 0 ≤ osum f A := osum_nonneg (fun o ho => h o (by simp [ho]))
  have h2 : 0 ≤ osum f B := osum_nonneg (fun o ho => h o (by simp [ho]))
  omega

theorem asum_nil (f : OOA → Int) : asum f [] = 0 := rfl
theorem asum_append (f : OOA → Int) (A B : Accts) : asum f (A ++ B) = asum f A + asum f B := by simp [asum]
theorem asum_cons (f : OOA → Int) (x : Pubkey × OOA) (A : Accts) : asum f (x :: A) = f x.2 + asum f A := by simp [asum]
theorem asum_set {f : OOA → Int} {as : Accts} {k : Pubkey} {a : OOA} (h : as.get? k = some a) (b : OOA) :
    asum f (as.set k b) = asum f as - f a + f b := by
  obtain ⟨A, B, h1, h2, _⟩ := Accts.split h
  rw [h2 b]
  conv => rhs; rw [h1]
  simp only [asum_append, asum_cons]
  omega
theorem asum_del {f : OOA → Int} {as : Accts} {k : Pubkey} {a : OOA} (h : as.get? k = some a) :
    asum f (as.del k) = asum f as - f a := by
  obtain ⟨A, B, h1, _, h3⟩ := Accts.split h
  rw [h3]
  conv => rhs; rw [h1]
  simp only [asum_append, asum_cons]
  omega

/-- Contributions of an obligation to the locked balances of account `k`. -/
def cB (k : Pubkey) (o : Obl) : Int := if o.acct = k ∧ o.side = .bid then o.qty else 0
def cA (k : Pubkey) (o : Obl) : Int := if o.acct = k ∧ o.side = .ask then o.qty else 0
def cQ (k : Pubkey) (o : Obl) : Int := if o.acct = k ∧ o.side = .bid then o.qty * o.lp else 0
def cN (m : Market) (k : Pubkey) (o : Obl) : Int := if o.acct = k ∧ o.side = .bid then o.need m else 0

structure AcctOk (m : Market) (O : List Obl) (k : Pubkey) (x : Int) (a : OOA) : Prop where
  bids : a.position.bidsBaseLots = osum (cB k) O
  asks : a.position.asksBaseLots = osum (cA k) O
  quote : a.position.bidsQuoteLots = osum (cQ k) O
  fees : osum (cN m k) O + x ≤ a.position.lockedMakerFees
  len : a.openOrders.length = 24
  used : ∀ i oo, a.openOrders[i]? = some oo → oo.isFree = false →
    ∃ o ∈ O, o.term = true ∧ o.acct = k ∧ o.slot = i ∧ o.oo = oo
  baseFree : inU64 a.position.baseFreeNative
  quoteFree : inU64 a.position.quoteFreeNative
  locked : inU64 a.position.lockedMakerFees
  refs : inU64 a.position.referrerRebatesAvailable

/-- Base and quote attributed to an account. -/
def acctB (m : Market) (a : OOA) : Int := a.position.baseFreeNative + a.position.asksBaseLots * m.baseLotSize
def acctQ (m : Market) (a : OOA) : Int :=
  a.position.quoteFreeNative + a.position.bidsQuoteLots * m.quoteLotSize + a.position.lockedMakerFees +
    a.position.referrerRebatesAvailable
def acctR (a : OOA) : Int := a.position.referrerRebatesAvailable

def termKeys (O : List Obl) : List (Pubkey × Nat) := (O.filter Obl.term).map (fun o => (o.acct, o.slot))
def termIds (O : List Obl) : List (Side × Nat) := (O.filter Obl.term).map (fun o => (o.oo.side, o.oo.id))

/-- The ledger is consistent with the obligations, up to a deposit of `dB`, `dQ` still to be recorded.  `ex` is maker fee locked
beyond the obligations' needs. -/
structure GInv (m : Market) (as : Accts) (O : List Obl) (dB dQ : Int) (ex : Pubkey → Int) : Prop where
  nodup : (as.map (·.1)).Nodup
  ok : ∀ o ∈ O, OblOk m o
  owner : ∀ o ∈ O, ∃ a, as.get? o.acct = some a
  acct : ∀ k a, as.get? k = some a → AcctOk m O k (ex k) a
  link : ∀ o ∈ O, o.term = true → ∀ a, as.get? o.acct = some a → a.openOrders[o.slot]? = some o.oo
  slots : (termKeys O).Nodup
  ids : (termIds O).Nodup
  base : m.baseDepositTotal + dB = asum (acctB m) as + osum (Obl.pendB m) O
  quote : m.quoteDepositTotal + dQ = asum (acctQ m) as + m.feesAvailable + osum (Obl.pendQ m) O
  refs : m.referrerRebatesAccrued = asum acctR as

theorem termKeys_perm {A B : List Obl} (h : A.Perm B) : (termKeys A).Perm (termKeys B) := (h.filter _).map _
theorem termIds_perm {A B : List Obl} (h : A.Perm B) : (termIds A).Perm (termIds B) := (h.filter _).map _

theorem AcctOk.perm {m : Market} {O O' : List Obl} {k : Pubkey} {x : Int} {a : OOA} (h : AcctOk m O k x a) (hp : O.Perm O') :
    AcctOk m O' k x a := by
  refine ⟨?_, ?_, ?_, ?_, h.len, ?_, h.baseFree, h.quoteFree, h.locked, h.refs⟩
  · rw [← osum_perm _ hp]; exact h.bids
  · rw [← osum_perm _ hp]; exact h.asks
  · rw [← osum_perm _ hp]; exact h.quote
  · rw [← osum_perm _ hp]; exact h.fees
  · intro i oo h1 h2
    obtain ⟨o, h3, h4⟩ := h.used i oo h1 h2
    exact ⟨o, hp.mem_iff.mp h3, h4⟩

theorem GInv.perm {m : Market} {as : Accts} {O O' : List Obl} {dB dQ : Int} {ex : Pubkey → Int} (h : GInv m as O dB dQ ex) (hp : O.Perm O') :
    GInv m as O' dB dQ ex := by
  refine ⟨h.nodup, fun o ho => h.ok o (hp.mem_iff.mpr ho), fun o ho => h.owner o (hp.mem_iff.mpr ho),
    fun k a ha => (h.acct k a ha).perm hp, fun o ho => h.link o (hp.mem_iff.mpr ho), ?_, ?_, ?_, ?_, h.refs⟩
  · exact (termKeys_perm hp).nodup_iff.mp h.slots
  · exact (termIds_perm hp).nodup_iff.mp h.ids
  · rw [← osum_perm _ hp]; exact h.base
  · rw [← osum_perm _ hp]; exact h.quote

/-- The market fields the invariant depends on. -/
structure SameM (m m' : Market) : Prop where
  maker : m'.makerFee = m.makerFee
  bls : m'.baseLotSize = m.baseLotSize
  qls : m'.quoteLotSize = m.quoteLotSize

theorem SameM.need {m m' : Market} (h : SameM m m') (o : Obl) : o.need m' = o.need m := by
  cases o <;> simp only [Obl.need, h.maker, h.qls]
theorem SameM.rebate {m m' : Market} (h : SameM m m') (f : FillEvent) : f.rebate m' = f.rebate m := by
  simp only [FillEvent.rebate, h.maker, h.qls]
theorem SameM.pendB {m m' : Market} (h : SameM m m') (o : Obl) : o.pendB m' = o.pendB m := by
  cases o <;> simp only [Obl.pendB, h.bls]
theorem SameM.pendQ {m m' : Market} (h : SameM m m') (o : Obl) : o.pendQ m' = o.pendQ m := by
  cases o <;> simp only [Obl.pendQ, h.qls, h.rebate]
theorem SameM.oblOk {m m' : Market} (h : SameM m m') {o : Obl} (ho : OblOk m o) : OblOk m' o := by
  refine ⟨ho.qty, ho.lp, ?_, ?_, ho.oside, ho.used, ho.rest, ?_⟩
  · rw [h.qls]; exact ho.quote
  · rw [h.bls]; exact ho.base
  · intro f oo he; rw [h.qls]; exact ho.fill f oo he
theorem SameM.cN {m m' : Market} (h : SameM m m') (k : Pubkey) (o : Obl) : cN m' k o = cN m k o := by
  simp only [OB.cN, h.need]
theorem SameM.acctOk {m m' : Market} (h : SameM m m') {O : List Obl} {k : Pubkey} {x : Int} {a : OOA}
    (ha : AcctOk m O k x a) : AcctOk m' O k x a := by
  refine ⟨ha.bids, ha.asks, ha.quote, ?_, ha.len, ha.used, ha.baseFree, ha.quoteFree, ha.locked, ha.refs⟩
  rw [osum_congr (fun o _ => h.cN k o)]; exact ha.fees
theorem SameM.acctB {m m' : Market} (h : SameM m m') : OB.acctB m' = OB.acctB m := by funext a; simp only [OB.acctB, h.bls]
theorem SameM.acctQ {m m' : Market} (h : SameM m m') : OB.acctQ m' = OB.acctQ m := by funext a; simp only [OB.acctQ, h.qls]

/-- Changing the market account. -/
theorem GInv.market {m m' : Market} {as : Accts} {O : List Obl} {dB dQ dB' dQ' : Int} {ex : Pubkey → Int} (h : GInv m as O dB dQ ex) (hm : SameM m m')
    (hb : m'.baseDepositTotal + dB' = m.baseDepositTotal + dB)
    (hq : m'.quoteDepositTotal + dQ' - m'.feesAvailable = m.quoteDepositTotal + dQ - m.feesAvailable)
    (hr : m'.referrerRebatesAccrued = m.referrerRebatesAccrued) : GInv m' as O dB' dQ' ex := by
  refine ⟨h.nodup, fun o ho => hm.oblOk (h.ok o ho), h.owner, fun k a ha => hm.acctOk (h.acct k a ha), h.link, h.slots, h.ids,
    ?_, ?_, ?_⟩
  · rw [hm.acctB, osum_congr (fun o _ => hm.pendB o), hb]; exact h.base
  · rw [hm.acctQ, osum_congr (fun o _ => hm.pendQ o)]; have := h.quote; omega
  · rw [hr]; exact h.refs

/-! ### changing free balances of one account -/

/-- `a'` differs from `a` only in balances the obligations do not mention. -/
structure SameLocks (a a' : OOA) : Prop where
  bids : a'.position.bidsBaseLots = a.position.bidsBaseLots
  asks : a'.position.asksBaseLots = a.position.asksBaseLots
  quote : a'.position.bidsQuoteLots = a.position.bidsQuoteLots
  orders : a'.openOrders = a.openOrders

theorem GInv.setFree {m : Market} {as : Accts} {O : List Obl} {dB dQ : Int} {ex : Pubkey → Int} (h : GInv m as O dB dQ ex) {k : Pubkey} {a a' : OOA}
    (ha : as.get? k = some a) (hs : SameLocks a a') {ex' : Pubkey → Int}
    (hex : ∀ j, j ≠ k → ex' j = ex j) (hf : osum (cN m k) O + ex' k ≤ a'.position.lockedMakerFees)
    (h1 : inU64 a'.position.baseFreeNative) (h2 : inU64 a'.position.quoteFreeNative)
    (h3 : inU64 a'.position.lockedMakerFees) (h4 : inU64 a'.position.referrerRebatesAvailable)
    {m' : Market} (hm : SameM m m') {dB' dQ' : Int}
    (hb : m'.baseDepositTotal + dB' - a'.position.baseFreeNative = m.baseDepositTotal + dB - a.position.baseFreeNative)
    (hq : m'.quoteDepositTotal + dQ' - m'.feesAvailable - (a'.position.quoteFreeNative + a'.position.lockedMakerFees +
        a'.position.referrerRebatesAvailable) =
      m.quoteDepositTotal + dQ - m.feesAvailable - (a.position.quoteFreeNative + a.position.lockedMakerFees +
        a.position.referrerRebatesAvailable))
    (hr : m'.referrerRebatesAccrued - a'.position.referrerRebatesAvailable =
      m.referrerRebatesAccrued - a.position.referrerRebatesAvailable) :
    GInv m' (as.set k a') O dB' dQ' ex' := by
  have hok := h.acct k a ha
  refine ⟨by rw [Accts.keys_set]; exact h.nodup, fun o ho => hm.oblOk (h.ok o ho), ?_, ?_, ?_, h.slots, h.ids, ?_, ?_, ?_⟩
  · intro o ho
    obtain ⟨b, hb⟩ := h.owner o ho
    rw [Accts.get?_set]
    split
    · rw [ha]; exact ⟨a', rfl⟩
    · exact ⟨b, hb⟩
  · intro j b hj
    apply hm.acctOk
    rw [Accts.get?_set] at hj
    split at hj
    · rename_i he; subst he
      rw [ha] at hj; simp only [Option.map_some, Option.some.injEq] at hj; subst hj
      refine ⟨?_, ?_, ?_, hf, ?_, ?_, h1, h2, h3, h4⟩
      · rw [hs.bids]; exact hok.bids
      · rw [hs.asks]; exact hok.asks
      · rw [hs.quote]; exact hok.quote
      · rw [hs.orders]; exact hok.len
      · rw [hs.orders]; exact hok.used
    · rename_i hne; rw [hex j hne]; exact h.acct j b hj
  · intro o ho ht b hb
    rw [Accts.get?_set] at hb
    split at hb
    · rename_i he
      rw [ha] at hb; simp only [Option.map_some, Option.some.injEq] at hb; subst hb
      rw [hs.orders]; exact h.link o ho ht a (by rw [he]; exact ha)
    · exact h.link o ho ht b hb
  · rw [hm.acctB, osum_congr (fun o _ => hm.pendB o), asum_set ha]
    have := h.base
    simp only [acctB, hs.asks]
    omega
  · rw [hm.acctQ, osum_congr (fun o _ => hm.pendQ o), asum_set ha]
    have := h.quote
    simp only [acctQ, hs.quote]
    omega
  · rw [asum_set ha]
    have := h.refs
    simp only [acctR]
    omega

/-! ### discharging an obligation -/

theorem termKeys_cons (o : Obl) (R : List Obl) : termKeys (o :: R) = if o.term then (o.acct, o.slot) :: termKeys R else termKeys R := by
  unfold termKeys; rw [List.filter_cons]; split <;> rfl
theorem termIds_cons (o : Obl) (R : List Obl) :
    termIds (o :: R) = if o.term then (o.oo.side, o.oo.id) :: termIds R else termIds R := by
  unfold termIds; rw [List.filter_cons]; split <;> rfl

theorem mem_termKeys {o : Obl} {R : List Obl} (h : o ∈ R) (ht : o.term = true) : (o.acct, o.slot) ∈ termKeys R :=
  List.mem_map_of_mem (f := fun o : Obl => (o.acct, o.slot)) (List.mem_filter.mpr ⟨h, ht⟩)

/-- The account of a discharged obligation. -/
structure Discharged (m : Market) (o : Obl) (a a' : OOA) : Prop where
  bids : a'.position.bidsBaseLots = a.position.bidsBaseLots - (if o.side = .bid then o.qty else 0)
  asks : a'.position.asksBaseLots = a.position.asksBaseLots - (if o.side = .ask then o.qty else 0)
  quote : a'.position.bidsQuoteLots = a.position.bidsQuoteLots - (if o.side = .bid then o.qty * o.lp else 0)
  fees : a.position.lockedMakerFees - (if o.side = .bid then o.need m else 0) ≤ a'.position.lockedMakerFees
  orders : a'.openOrders = if o.term then a.openOrders.set o.slot OpenOrder.default else a.openOrders
  baseFree : inU64 a'.position.baseFreeNative
  quoteFree : inU64 a'.position.quoteFreeNative
  locked : inU64 a'.position.lockedMakerFees
  refs : inU64 a'.position.referrerRebatesAvailable

theorem GInv.discharge {m : Market} {as : Accts} {o : Obl} {R : List Obl} {dB dQ : Int} {ex : Pubkey → Int} (h : GInv m as (o :: R) dB dQ ex)
    {a a' : OOA} (ha : as.get? o.acct = some a) (hd : Discharged m o a a') {m' : Market} (hm : SameM m m') {dB' dQ' : Int}
    (hb : m'.baseDepositTotal + dB' - acctB m a' = m.baseDepositTotal + dB - acctB m a - o.pendB m)
    (hq : m'.quoteDepositTotal + dQ' - m'.feesAvailable - acctQ m a' =
      m.quoteDepositTotal + dQ - m.feesAvailable - acctQ m a - o.pendQ m)
    (hr : m'.referrerRebatesAccrued - a'.position.referrerRebatesAvailable =
      m.referrerRebatesAccrued - a.position.referrerRebatesAvailable) :
    GInv m' (as.set o.acct a') R dB' dQ' ex := by
  have hok := h.acct _ a ha
  have hslots := h.slots
  rw [termKeys_cons] at hslots
  have hids := h.ids
  rw [termIds_cons] at hids
  have hne : o.term = true → ∀ o' ∈ R, o'.term = true → o'.acct = o.acct → o'.slot ≠ o.slot := by
    intro ht o' ho' ht' hacc hsl
    rw [if_pos ht, List.nodup_cons] at hslots
    apply hslots.1
    rw [← hacc, ← hsl]
    exact mem_termKeys ho' ht'
  refine ⟨by rw [Accts.keys_set]; exact h.nodup, fun o' ho => hm.oblOk (h.ok o' (by simp [ho])), ?_, ?_, ?_, ?_, ?_, ?_, ?_, ?_⟩
  · intro o' ho
    obtain ⟨b, hb⟩ := h.owner o' (by simp [ho])
    rw [Accts.get?_set]
    split
    · rw [ha]; exact ⟨a', rfl⟩
    · exact ⟨b, hb⟩
  · intro j b hj
    apply hm.acctOk
    rw [Accts.get?_set] at hj
    split at hj
    · rename_i he; subst he
      rw [ha] at hj; simp only [Option.map_some, Option.some.injEq] at hj; subst hj
      refine ⟨?_, ?_, ?_, ?_, ?_, ?_, hd.baseFree, hd.quoteFree, hd.locked, hd.refs⟩
      · rw [hd.bids, hok.bids, osum_cons]; simp only [cB, true_and]; omega
      · rw [hd.asks, hok.asks, osum_cons]; simp only [cA, true_and]; omega
      · rw [hd.quote, hok.quote, osum_cons]; simp only [cQ, true_and]; omega
      · refine Int.le_trans ?_ hd.fees
        have := hok.fees
        rw [osum_cons] at this
        simp only [cN, true_and] at this ⊢
        omega
      · rw [hd.orders]; split
        · rw [List.length_set]; exact hok.len
        · exact hok.len
      · intro i oo hi hfree
        rw [hd.orders] at hi
        by_cases ht : o.term = true
        · rw [if_pos ht, List.getElem?_set] at hi
          split at hi
          · split at hi
            · injection hi with hi; rw [← hi] at hfree; cases hfree
            · cases hi
          · rename_i hsl
            obtain ⟨o', ho', h5, h6, h7, h8⟩ := hok.used i oo hi hfree
            rcases List.mem_cons.mp ho' with rfl | ho'
            · exact absurd h7 hsl
            · exact ⟨o', ho', h5, h6, h7, h8⟩
        · rw [if_neg ht] at hi
          obtain ⟨o', ho', h5, h6, h7, h8⟩ := hok.used i oo hi hfree
          rcases List.mem_cons.mp ho' with rfl | ho'
          · exact absurd h5 ht
          · exact ⟨o', ho', h5, h6, h7, h8⟩
    · rename_i hne'
      have hb' := h.acct j b hj
      have hz : o.acct ≠ j := fun he => hne' he.symm
      refine ⟨?_, ?_, ?_, ?_, hb'.len, ?_, hb'.baseFree, hb'.quoteFree, hb'.locked, hb'.refs⟩
      · rw [hb'.bids, osum_cons]; simp [cB, hz]
      · rw [hb'.asks, osum_cons]; simp [cA, hz]
      · rw [hb'.quote, osum_cons]; simp [cQ, hz]
      · have := hb'.fees; rw [osum_cons] at this; simpa [cN, hz] using this
      · intro i oo hi hfree
        obtain ⟨o', ho', h5, h6, h7, h8⟩ := hb'.used i oo hi hfree
        rcases List.mem_cons.mp ho' with rfl | ho'
        · exact absurd h6 hz
        · exact ⟨o', ho', h5, h6, h7, h8⟩
  · intro o' ho ht b hb
    rw [Accts.get?_set] at hb
    split at hb
    · rename_i he
      rw [ha] at hb; simp only [Option.map_some, Option.some.injEq] at hb; subst hb
      have hl := h.link o' (by simp [ho]) ht a (by rw [he]; exact ha)
      rw [hd.orders]
      split
      · rename_i hto
        rw [List.getElem?_set_ne (fun hsl => hne hto o' ho ht he hsl.symm)]; exact hl
      · exact hl
    · exact h.link o' (by simp [ho]) ht b hb
  · split at hslots
    · exact (List.nodup_cons.mp hslots).2
    · exact hslots
  · split at hids
    · exact (List.nodup_cons.mp hids).2
    · exact hids
  · rw [hm.acctB, osum_congr (fun o _ => hm.pendB o), asum_set ha]
    have := h.base
    rw [osum_cons] at this
    omega
  · rw [hm.acctQ, osum_congr (fun o _ => hm.pendQ o), asum_set ha]
    have := h.quote
    rw [osum_cons] at this
    omega
  · rw [asum_set ha]
    have := h.refs
    simp only [acctR]
    omega

/-- Cancelling the order of a resting order or out event. -/
theorem GInv.cancel {m : Market} {as : Accts} {o : Obl} {R : List Obl} {dB dQ : Int} {ex : Pubkey → Int} (h : GInv m as (o :: R) dB dQ ex)
    (hk : (∃ s c l oo, o = .rest s c l oo) ∨ ∃ e oo, o = .out e oo) (hb : 0 < m.baseLotSize) (hq : 0 < m.quoteLotSize)
    {a a' : OOA} (ha : as.get? o.acct = some a) (hc : a.cancelOrder o.slot o.qty m = .ok a') :
    GInv m (as.set o.acct a') R dB dQ ex := by
  obtain ⟨oo, fees, hr⟩ := cancelOrder_inv hc
  have ho := h.ok o (by simp)
  have ht : o.term = true := by rcases hk with ⟨s, c, l, oo, rfl⟩ | ⟨e, oo, rfl⟩ <;> rfl
  have hlp : o.lp = o.oo.lockedPrice := by rcases hk with ⟨s, c, l, oo, rfl⟩ | ⟨e, oo, rfl⟩ <;> rfl
  have hneed : o.need m = ceilFee m.makerFee (o.qty * o.lp * m.quoteLotSize) := by
    rcases hk with ⟨s, c, l, oo, rfl⟩ | ⟨e, oo, rfl⟩ <;> rfl
  have hpb : o.pendB m = 0 := by rcases hk with ⟨s, c, l, oo, rfl⟩ | ⟨e, oo, rfl⟩ <;> rfl
  have hpq : o.pendQ m = 0 := by rcases hk with ⟨s, c, l, oo, rfl⟩ | ⟨e, oo, rfl⟩ <;> rfl
  have hoo : oo = o.oo := by
    have h1 := h.link o (by simp) ht a ha
    rw [hr.hslot] at h1; injection h1
  subst hoo
  have hside : o.oo.side = o.side := ho.oside ht
  have h1 := ho.qty
  have h2 := ho.lp
  have hqn : 0 ≤ o.qty * o.lp * m.quoteLotSize := Int.mul_nonneg (Int.mul_nonneg (by omega) (by omega)) (by omega)
  have hbn : 0 ≤ o.qty * m.baseLotSize := Int.mul_nonneg (by omega) (by omega)
  have eq1 : asU64 (o.qty * o.oo.lockedPrice * m.quoteLotSize) = o.qty * o.lp * m.quoteLotSize := by
    rw [← hlp]; exact asU64_eq hqn (by have := ho.quote; unfold i64Max at this; unfold u64Max; omega)
  have eq2 : asU64 (o.qty * m.baseLotSize) = o.qty * m.baseLotSize :=
    asU64_eq hbn (by have := ho.base; unfold i64Max at this; unfold u64Max; omega)
  have hfees : fees = ceilFee m.makerFee (o.qty * o.lp * m.quoteLotSize) := by
    have := hr.hfees; rw [eq1] at this; exact makerFeesCeilU_inv hqn this
  have hfree := hr.free
  have hres := hr.res
  rw [eq1, eq2, hside, ← hlp] at hres
  rw [eq1, eq2, hside] at hfree
  have hok := h.acct _ a ha
  cases hs : o.side with
  | bid =>
    rw [hs] at hres hfree
    simp only [relPos, freePos] at hres
    have hd : Discharged m o a a' := by
      subst hres
      refine ⟨?_, ?_, ?_, ?_, ?_, hok.baseFree, hfree.2.1, hfree.2.2, hok.refs⟩
      · simp [hs]
      · simp [hs]
      · simp [hs]
      · simp only [hs, if_true, hneed, hfees]; omega
      · rw [if_pos ht]
    refine h.discharge ha hd ⟨rfl, rfl, rfl⟩ ?_ ?_ ?_
    · subst hres; simp only [acctB, hpb]; omega
    · subst hres; simp only [acctQ, hpq, Int.sub_mul]; omega
    · subst hres; rfl
  | ask =>
    rw [hs] at hres hfree
    simp only [relPos, freePos] at hres
    have hd : Discharged m o a a' := by
      subst hres
      refine ⟨?_, ?_, ?_, ?_, ?_, hfree, hok.quoteFree, hok.locked, hok.refs⟩
      · simp [hs]
      · simp [hs]
      · simp [hs]
      · simp [hs]
      · rw [if_pos ht]
    refine h.discharge ha hd ⟨rfl, rfl, rfl⟩ ?_ ?_ ?_
    · subst hres; simp only [acctB, hpb, Int.sub_mul]; omega
    · subst hres; simp only [acctQ, hpq]; omega
    · subst hres; rfl

/-- Delivering a fill to its maker. -/
theorem GInv.deliver {m : Market} {as : Accts} {f : FillEvent} {oo : OpenOrder} {R : List Obl} {dB dQ : Int} {ex : Pubkey → Int}
    (h : GInv m as (.fill f oo :: R) dB dQ ex) (hb : 0 < m.baseLotSize) (hq : 0 < m.quoteLotSize)
    {a a' : OOA} {m' : Market} (ha : as.get? f.maker = some a) (hc : a.executeMaker m f = .ok (a', m')) :
    GInv m' (as.set f.maker a') R dB dQ ex := by
  obtain ⟨mf, rb, lf, ab, hr⟩ := executeMaker_inv hc
  have ho := h.ok (.fill f oo) (by simp)
  obtain ⟨hp1, hp2, hp3⟩ := ho.fill f oo rfl
  have h1 : 1 ≤ f.quantity := ho.qty
  have h2 : 1 ≤ fillLockPrice f := ho.lp
  have hquote : f.quantity * fillLockPrice f * m.quoteLotSize ≤ i64Max := ho.quote
  have hbase : f.quantity * m.baseLotSize ≤ i64Max := ho.base
  have hqn : 0 ≤ f.quantity * f.price * m.quoteLotSize := Int.mul_nonneg (Int.mul_nonneg (by omega) (by omega)) (by omega)
  have hln : 0 ≤ f.quantity * fillLockPrice f * m.quoteLotSize := Int.mul_nonneg (Int.mul_nonneg (by omega) (by omega)) (by omega)
  have hbn : 0 ≤ f.quantity * m.baseLotSize := Int.mul_nonneg (by omega) (by omega)
  have eq1 : asU64 (f.quantity * f.price * m.quoteLotSize) = f.quantity * f.price * m.quoteLotSize :=
    asU64_eq hqn (by unfold i64Max at hp2; unfold u64Max; omega)
  have eq2 : asU64 (f.quantity * m.baseLotSize) = f.quantity * m.baseLotSize :=
    asU64_eq hbn (by unfold i64Max at hbase; unfold u64Max; omega)
  have eq3 : asU64 (f.quantity * fillLockPrice f * m.quoteLotSize) = f.quantity * fillLockPrice f * m.quoteLotSize :=
    asU64_eq hln (by unfold i64Max at hquote; unfold u64Max; omega)
  have hrb : rb = f.rebate m := by
    have := hr.hrebate
    unfold FillEvent.rebate
    split at this
    · rename_i he; rw [if_pos he]; cases this; rfl
    · rename_i he; rw [if_neg he]; rw [eq1] at this; exact makerRebateFloor_inv hqn this
  have hmf : 0 ≤ mf ∧ mf ≤ floorFee m.makerFee (f.quantity * f.price * m.quoteLotSize) := by
    have := hr.hfees
    split at this
    · cases this; exact ⟨Int.le_refl _, floorFee_nonneg hqn⟩
    · rw [eq1] at this; have e := makerFeesFloor_inv hqn this
      rw [e]; exact ⟨floorFee_nonneg hqn, Int.le_refl _⟩
  have hok := h.acct _ a ha
  have hsm : SameM m m' := by rw [hr.mkt]; exact ⟨rfl, rfl, rfl⟩
  have hmref := hr.ref
  cases hs : f.takerSide.invert with
  | bid =>
    have hts : f.takerSide = .ask := by cases hx : f.takerSide <;> simp [hx, Side.invert] at hs ⊢
    have hfree := hr.free
    rw [hs, eq2] at hfree
    simp only at hfree
    -- released fee and freed amount
    have hlf : lf ≤ floorFee m.makerFee (f.quantity * fillLockPrice f * m.quoteLotSize) ∧
        ab - lf + mf = f.quantity * fillLockPrice f * m.quoteLotSize - f.quantity * f.price * m.quoteLotSize := by
      by_cases hpeg : f.pegLimit ≠ -1 ∧ f.takerSide = .ask
      · obtain ⟨_, _, g3, _, _, _, g7⟩ := hr.locked.peg hpeg
        have elp : fillLockPrice f = f.pegLimit := by unfold fillLockPrice; rw [if_pos hpeg]
        rw [← elp, eq3] at g3 g7
        rw [eq1] at g7
        have := makerFeesFloor_inv hln g3
        exact ⟨by omega, by omega⟩
      · obtain ⟨g1, g2⟩ := hr.locked.fixed hpeg
        have elp : fillLockPrice f = f.price := by unfold fillLockPrice; rw [if_neg hpeg]
        rw [elp]; exact ⟨by omega, by omega⟩
    have hpos : a'.position = relPos .bid (makerPos .bid a.position (f.quantity * m.baseLotSize)
        (f.quantity * f.price * m.quoteLotSize) mf rb lf ab) f.quantity (fillLockPrice f) ∧
        a'.openOrders = if f.makerOut then a.openOrders.set f.makerSlot OpenOrder.default else a.openOrders := by
      cases hout : f.makerOut with
      | false =>
        have := hr.part hout
        rw [eq1, eq2, hs] at this
        rw [this]; exact ⟨rfl, rfl⟩
      | true =>
        obtain ⟨oo', hrr⟩ := hr.out hout
        have hlink := h.link (.fill f oo) (by simp) hout a ha
        have hoo : oo' = oo := by
          have := hrr.hslot
          simp only at this
          have hl : a.openOrders[f.makerSlot]? = some oo := hlink
          rw [hl] at this; injection this with this; exact this.symm
        subst hoo
        have hsd : oo'.side = .bid := by have := ho.oside hout; simp only [Obl.oo, Obl.side, hs] at this; exact this
        have := hrr.res
        rw [eq1, eq2, hs, hsd] at this
        rw [this]; exact ⟨rfl, rfl⟩
    obtain ⟨hp, hor⟩ := hpos
    simp only [relPos, makerPos] at hp
    have hd : Discharged m (.fill f oo) a a' := by
      refine ⟨?_, ?_, ?_, ?_, hor, ?_, ?_, ?_, ?_⟩ <;> rw [hp]
      · simp [Obl.side, hs, Obl.qty]
      · simp [Obl.side, hs]
      · simp [Obl.side, hs, Obl.qty, Obl.lp]
      · simp only [Obl.side, hs, if_true, Obl.need]; omega
      · exact hfree.2.1
      · exact hfree.2.2.2.1
      · exact hfree.2.2.2.2
      · exact hmref
    refine h.discharge (o := .fill f oo) ha hd hsm ?_ ?_ ?_
    · rw [hr.mkt]; simp only [acctB, Obl.pendB, hts]; rw [hp]; simp only; omega
    · rw [hr.mkt]; simp only [acctQ, Obl.pendQ, hts]; rw [hp]; simp only [Int.sub_mul]; omega
    · rw [hr.mkt, hp]; simp only; omega
  | ask =>
    have hts : f.takerSide = .bid := by cases hx : f.takerSide <;> simp [hx, Side.invert] at hs ⊢
    have hfree := hr.free
    rw [hs, eq1] at hfree
    simp only at hfree
    have hpos : a'.position = relPos .ask (makerPos .ask a.position (f.quantity * m.baseLotSize)
        (f.quantity * f.price * m.quoteLotSize) mf rb lf ab) f.quantity (fillLockPrice f) ∧
        a'.openOrders = if f.makerOut then a.openOrders.set f.makerSlot OpenOrder.default else a.openOrders := by
      cases hout : f.makerOut with
      | false =>
        have := hr.part hout
        rw [eq1, eq2, hs] at this
        rw [this]; exact ⟨rfl, rfl⟩
      | true =>
        obtain ⟨oo', hrr⟩ := hr.out hout
        have hlink := h.link (.fill f oo) (by simp) hout a ha
        have hoo : oo' = oo := by
          have := hrr.hslot
          simp only at this
          have hl : a.openOrders[f.makerSlot]? = some oo := hlink
          rw [hl] at this; injection this with this; exact this.symm
        subst hoo
        have hsd : oo'.side = .ask := by have := ho.oside hout; simp only [Obl.oo, Obl.side, hs] at this; exact this
        have := hrr.res
        rw [eq1, eq2, hs, hsd] at this
        rw [this]; exact ⟨rfl, rfl⟩
    obtain ⟨hp, hor⟩ := hpos
    simp only [relPos, makerPos] at hp
    have hd : Discharged m (.fill f oo) a a' := by
      refine ⟨?_, ?_, ?_, ?_, hor, ?_, ?_, ?_, ?_⟩ <;> rw [hp]
      · simp [Obl.side, hs]
      · simp [Obl.side, hs, Obl.qty]
      · simp [Obl.side, hs]
      · simp [Obl.side, hs]
      · exact hok.baseFree
      · exact hfree.2.2
      · exact hok.locked
      · exact hmref
    refine h.discharge (o := .fill f oo) ha hd hsm ?_ ?_ ?_
    · rw [hr.mkt]; simp only [acctB, Obl.pendB, hts]; rw [hp]; simp only [Int.sub_mul]; omega
    · rw [hr.mkt]; simp only [acctQ, Obl.pendQ, hts]; rw [hp]; simp only; omega
    · rw [hr.mkt, hp]; simp only; omega

end OB
