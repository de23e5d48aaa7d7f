import Verif.Spec.Wealth
import Verif.Proofs.Exit
/-!
What is due to an account, along the steps of the engine.
-/
namespace OB
open Spec

/-! ### due, of a ledger and a list of resting orders -/

/-- `dueBase` with its ingredients. -/
def ldB (m : Market) (g : Ledger) (L : Rests) (k : Pubkey) (a : OOA) : Int :=
  a.position.baseFreeNative + total (g.heap.events.filter (fun e => eventAccount e = k)) (creditBase m) +
    sumOver (L.filter (fun x => x.2.2.owner = k)) (fun sd _ l => lockedBase m sd l)

/-- `dueQuote` with its ingredients. -/
def ldQ (m : Market) (g : Ledger) (L : Rests) (k : Pubkey) (a : OOA) : Int :=
  a.position.quoteFreeNative + total (g.heap.events.filter (fun e => eventAccount e = k)) (creditQuote m a) +
    sumOver (L.filter (fun x => x.2.2.owner = k)) (fun sd c l => heldQuote m sd c l + heldFee m sd c l)

theorem dueBase_ld (s : State) (k : Pubkey) (a : OOA) : dueBase s k a = ldB s.g.market s.g s.book.resting k a := rfl
theorem dueQuote_ld (s : State) (k : Pubkey) (a : OOA) : dueQuote s k a = ldQ s.g.market s.g s.book.resting k a := rfl

theorem ldB_perm {m : Market} {g : Ledger} {L L' : Rests} (h : L.Perm L') (k : Pubkey) (a : OOA) : ldB m g L k a = ldB m g L' k a := by
  unfold ldB; rw [sumOver_perm (h.filter _)]

theorem ldQ_perm {m : Market} {g : Ledger} {L L' : Rests} (h : L.Perm L') (k : Pubkey) (a : OOA) : ldQ m g L k a = ldQ m g L' k a := by
  unfold ldQ; rw [sumOver_perm (h.filter _)]

/-- Lot sizes and maker fee. -/
structure SameLots (m m' : Market) : Prop where
  base : m.baseLotSize = m'.baseLotSize
  quote : m.quoteLotSize = m'.quoteLotSize
  fee : m.makerFee = m'.makerFee

theorem SameLots.refl (m : Market) : SameLots m m := ⟨rfl, rfl, rfl⟩
theorem SameLots.symm {m m' : Market} (h : SameLots m m') : SameLots m' m := ⟨h.base.symm, h.quote.symm, h.fee.symm⟩
theorem SameLots.trans {m1 m2 m3 : Market} (h : SameLots m1 m2) (h' : SameLots m2 m3) : SameLots m1 m3 :=
  ⟨h.base.trans h'.base, h.quote.trans h'.quote, h.fee.trans h'.fee⟩
theorem LFrame.lots {g g' : Ledger} (h : LFrame g g') : SameLots g'.market g.market := ⟨h.bls, h.qls, h.maker⟩

section
variable {m m' : Market} (h : SameLots m m')
include h
theorem SameLots.fillQuote : fillQuote m = fillQuote m' := by funext f; simp [Spec.fillQuote, h.quote]
theorem SameLots.fillMakerFee : fillMakerFee m = fillMakerFee m' := by funext f; simp [Spec.fillMakerFee, h.fillQuote, h.fee]
theorem SameLots.fillRebate : fillRebate m = fillRebate m' := by funext f; simp [Spec.fillRebate, h.fillQuote, h.fee]
theorem SameLots.fillLocked : fillLocked m = fillLocked m' := by funext f; simp [Spec.fillLocked, h.fillQuote, h.quote]
theorem SameLots.fillLockedFee : fillLockedFee m = fillLockedFee m' := by
  funext f; simp [Spec.fillLockedFee, h.fillMakerFee, h.fillLocked, h.fee]
theorem SameLots.bidValue : bidValue m = bidValue m' := by funext q p; simp [Spec.bidValue, h.quote]
theorem SameLots.bidFee : bidFee m = bidFee m' := by funext q p; simp [Spec.bidFee, h.bidValue, h.fee]
theorem SameLots.creditBase : creditBase m = creditBase m' := by funext e; cases e <;> simp [Spec.creditBase, h.base]
theorem SameLots.creditQuote (a : OOA) : creditQuote m a = creditQuote m' a := by
  funext e; cases e <;> simp [Spec.creditQuote, h.fillQuote, h.fillMakerFee, h.fillRebate, h.fillLocked, h.fillLockedFee, h.bidValue, h.bidFee]
theorem SameLots.lockedBase : lockedBase m = lockedBase m' := by funext s l; simp [Spec.lockedBase, h.base]
theorem SameLots.heldQuote : heldQuote m = heldQuote m' := by funext s c l; simp [Spec.heldQuote, h.bidValue]
theorem SameLots.heldFee : heldFee m = heldFee m' := by funext s c l; simp [Spec.heldFee, h.bidFee]
theorem SameLots.makerBase : makerBase m = makerBase m' := by funext f; simp [Spec.makerBase, h.base]
theorem SameLots.makerQuote : makerQuote m = makerQuote m' := by
  funext f; simp [Spec.makerQuote, h.fillQuote, h.fillMakerFee, h.fillRebate]
theorem SameLots.makerSlack : makerSlack m = makerSlack m' := by funext f; simp [Spec.makerSlack, h.fillQuote, h.fee]
theorem SameLots.ldB (g : Ledger) (L : Rests) (k : Pubkey) (a : OOA) : ldB m g L k a = ldB m' g L k a := by
  simp only [OB.ldB, h.creditBase, h.lockedBase]
theorem SameLots.ldQ (g : Ledger) (L : Rests) (k : Pubkey) (a : OOA) : ldQ m g L k a = ldQ m' g L k a := by
  simp only [OB.ldQ, h.creditQuote, h.heldQuote, h.heldFee]
end

/-! ### steps -/

theorem sumMaker_nil (k : Pubkey) (v : FillEvent → Int) : sumMaker [] k v = 0 := rfl
theorem sumMaker_append (l1 l2 : List FillEvent) (k : Pubkey) (v : FillEvent → Int) :
    sumMaker (l1 ++ l2) k v = sumMaker l1 k v + sumMaker l2 k v := by simp [sumMaker]
theorem sumMaker_one (f : FillEvent) (k : Pubkey) (v : FillEvent → Int) : sumMaker [f] k v = if f.maker = k then v f else 0 := by
  by_cases h : f.maker = k <;> simp [sumMaker, h]

/-- From `(g, L)` to `(g', L')` every account stays, and what is due to it changes by the fills `fs` it made, and by `xB`, `xQ`. -/
def Shift (m : Market) (g : Ledger) (L : Rests) (g' : Ledger) (L' : Rests) (fs : List FillEvent) (xB xQ : Pubkey → Int) : Prop :=
  ∀ k a, g.accts.get? k = some a → ∃ a' loss, g'.accts.get? k = some a' ∧
    ldB m g' L' k a' = ldB m g L k a + sumMaker fs k (makerBase m) + xB k ∧
    ldQ m g' L' k a' = ldQ m g L k a + sumMaker fs k (makerQuote m) - loss + xQ k ∧
    0 ≤ loss ∧ loss ≤ sumMaker fs k (makerSlack m)

theorem Shift.refl (m : Market) (g : Ledger) (L : Rests) : Shift m g L g L [] (fun _ => 0) (fun _ => 0) :=
  fun _ a ha => ⟨a, 0, ha, by simp [sumMaker_nil], by simp [sumMaker_nil], Int.le_refl _, Int.le_refl _⟩

theorem Shift.trans {m : Market} {g1 g2 g3 : Ledger} {L1 L2 L3 : Rests} {f1 f2 : List FillEvent} {b1 b2 q1 q2 : Pubkey → Int}
    (h1 : Shift m g1 L1 g2 L2 f1 b1 q1) (h2 : Shift m g2 L2 g3 L3 f2 b2 q2) :
    Shift m g1 L1 g3 L3 (f1 ++ f2) (fun k => b1 k + b2 k) (fun k => q1 k + q2 k) := by
  intro k a ha
  obtain ⟨a1, l1, ha1, e1, e2, e3, e4⟩ := h1 k a ha
  obtain ⟨a2, l2, ha2, e5, e6, e7, e8⟩ := h2 k a1 ha1
  refine ⟨a2, l1 + l2, ha2, ?_, ?_, by omega, ?_⟩
  · rw [e5, e1, sumMaker_append]; simp only; omega
  · rw [e6, e2, sumMaker_append]; simp only; omega
  · rw [sumMaker_append]; omega

theorem Shift.perm {m : Market} {g g' : Ledger} {L1 L2 L1' L2' : Rests} {fs : List FillEvent} {b q : Pubkey → Int}
    (h : Shift m g L1 g' L1' fs b q) (p : L1.Perm L2) (p' : L1'.Perm L2') : Shift m g L2 g' L2' fs b q := by
  intro k a ha
  obtain ⟨a', l, h1, h2, h3, h4⟩ := h k a ha
  exact ⟨a', l, h1, by rw [← ldB_perm p, ← ldB_perm p']; exact h2, by rw [← ldQ_perm p, ← ldQ_perm p']; exact h3, h4⟩

theorem Shift.lots {m m' : Market} {g g' : Ledger} {L L' : Rests} {fs : List FillEvent} {b q : Pubkey → Int}
    (h : Shift m g L g' L' fs b q) (hm : SameLots m m') : Shift m' g L g' L' fs b q := by
  intro k a ha
  obtain ⟨a', l, h1, h2, h3, h4, h5⟩ := h k a ha
  rw [hm.ldB, hm.ldB, hm.makerBase] at h2
  rw [hm.ldQ, hm.ldQ, hm.makerQuote] at h3
  rw [hm.makerSlack] at h5
  exact ⟨a', l, h1, h2, h3, h4, h5⟩

/-- Nothing is due to anybody else or any more than before, in other words: the same up to `xB`, `xQ`. -/
theorem Shift.ext {m : Market} {g g' : Ledger} {L L' : Rests} {fs : List FillEvent} {b b' q q' : Pubkey → Int}
    (h : Shift m g L g' L' fs b q) (hb : ∀ k, b k = b' k) (hq : ∀ k, q k = q' k) : Shift m g L g' L' fs b' q' := by
  intro k a ha
  obtain ⟨a', l, h1, h2, h3, h4⟩ := h k a ha
  exact ⟨a', l, h1, by rw [← hb]; exact h2, by rw [← hq]; exact h3, h4⟩

/-- The slot of a queued out event is in use, so nothing has touched its record. -/
theorem LInv.lockedKept {g : Ledger} {L : Rests} {dB dQ : Int} {ex : Pubkey → Int} {n : Nat} (hi : LInv g L dB dQ ex n)
    {e : Event} (he : e ∈ g.heap.events) {a a' : OOA}
    (ha' : g.accts.get? (eventAccount e) = some a') {p : Nat → Bool}
    (hsl : ∀ (i : Nat), a'.openOrders[i]? = a.openOrders[i]?.map (fun oo => if p i then OpenOrder.default else oo)) :
    eventLockedAt a' e = eventLockedAt a e := by
  obtain ⟨O, q, hw⟩ := hi
  obtain ⟨o1, ho1, hk⟩ := hw.mem_ev he
  cases e with
  | fill f => rfl
  | out ev =>
    cases o1 with
    | rest s c l oo => cases hk
    | fill f oo => cases hk
    | out ev' oo =>
      have e1 : ev' = ev := by cases hk; rfl
      subst e1
      have l1 : a'.openOrders[ev'.ownerSlot]? = some oo := hw.ginv.link _ ho1 rfl a' ha'
      have hu : oo.isFree = false := (hw.ginv.ok _ ho1).used rfl
      have h := hsl ev'.ownerSlot
      rw [l1] at h
      cases hao : a.openOrders[ev'.ownerSlot]? with
      | none => rw [hao] at h; cases h
      | some oo2 =>
        rw [hao, Option.map_some] at h
        injection h with h
        by_cases hp : p ev'.ownerSlot
        · rw [if_pos hp] at h; rw [h] at hu; cases hu
        · rw [if_neg hp] at h
          simp only [eventLockedAt, l1, hao, h]

theorem creditQuote_locked {m : Market} {a a' : OOA} {e : Event} (h : eventLockedAt a' e = eventLockedAt a e) :
    creditQuote m a' e = creditQuote m a e := by
  cases e with
  | fill f => rfl
  | out ev => simp only [creditQuote, h]

theorem filter_owner_cons {x : Side × Comp × LeafNode} {L : Rests} {k : Pubkey} (f : Side → Comp → LeafNode → Int) :
    sumOver ((x :: L).filter (fun x => decide (x.2.2.owner = k))) f =
      (if x.2.2.owner = k then f x.1 x.2.1 x.2.2 else 0) + sumOver (L.filter (fun x => decide (x.2.2.owner = k))) f := by
  by_cases h : x.2.2.owner = k <;> simp [h, sumOver]

/-- One account is replaced, the queue stays. -/
theorem shift_set {m : Market} {g g' : Ledger} {L L' : Rests} {k0 : Pubkey} {a0 a0' : OOA} {fs : List FillEvent} {xB xQ : Pubkey → Int}
    (hset : g'.accts = g.accts.set k0 a0') (hheap : g'.heap = g.heap) (ha0 : g.accts.get? k0 = some a0)
    (hlk : ∀ e ∈ g.heap.events, eventAccount e = k0 → eventLockedAt a0' e = eventLockedAt a0 e)
    (hoth : ∀ k, k ≠ k0 → sumMaker fs k (makerBase m) = 0 ∧ sumMaker fs k (makerQuote m) = 0 ∧ sumMaker fs k (makerSlack m) = 0 ∧
      xB k = 0 ∧ xQ k = 0 ∧ L'.filter (fun x => x.2.2.owner = k) = L.filter (fun x => x.2.2.owner = k))
    (loss : Int) (hl0 : 0 ≤ loss) (hl : loss ≤ sumMaker fs k0 (makerSlack m))
    (hB : a0'.position.baseFreeNative + sumOver (L'.filter (fun x => x.2.2.owner = k0)) (fun sd _ l => lockedBase m sd l) =
      a0.position.baseFreeNative + sumOver (L.filter (fun x => x.2.2.owner = k0)) (fun sd _ l => lockedBase m sd l) +
        sumMaker fs k0 (makerBase m) + xB k0)
    (hQ : a0'.position.quoteFreeNative + sumOver (L'.filter (fun x => x.2.2.owner = k0)) (fun sd c l => heldQuote m sd c l + heldFee m sd c l) =
      a0.position.quoteFreeNative + sumOver (L.filter (fun x => x.2.2.owner = k0)) (fun sd c l => heldQuote m sd c l + heldFee m sd c l) +
        sumMaker fs k0 (makerQuote m) - loss + xQ k0) :
    Shift m g L g' L' fs xB xQ := by
  intro k a ha
  by_cases hk : k = k0
  · subst hk
    rw [ha0] at ha; injection ha with ha; subst ha
    refine ⟨a0', loss, by rw [hset]; exact Accts.get?_set_self _ ha0, ?_, ?_, hl0, hl⟩
    · unfold ldB; rw [hheap]; omega
    · unfold ldQ; rw [hheap]
      have : total (g.heap.events.filter (fun e => eventAccount e = k)) (creditQuote m a0') =
          total (g.heap.events.filter (fun e => eventAccount e = k)) (creditQuote m a0) := by
        refine total_congr fun e he => ?_
        rw [List.mem_filter] at he
        exact creditQuote_locked (hlk e he.1 (by simpa using he.2))
      rw [this]; omega
  · obtain ⟨h1, h2, h3, h4, h5, h6⟩ := hoth k hk
    refine ⟨a, 0, by rw [hset, Accts.get?_set_ne _ hk]; exact ha, ?_, ?_, Int.le_refl _, by omega⟩
    · unfold ldB; rw [hheap, h6]; omega
    · unfold ldQ; rw [hheap, h6]; omega

/-- An event is queued. -/
theorem shift_push {m : Market} {g g' : Ledger} {L L' : Rests} {e : Event} {fs : List FillEvent}
    (hset : g'.accts = g.accts) (hheap : g'.heap.events = g.heap.events ++ [e])
    (hoth : ∀ k, k ≠ eventAccount e → sumMaker fs k (makerBase m) = 0 ∧ sumMaker fs k (makerQuote m) = 0 ∧
      sumMaker fs k (makerSlack m) = 0 ∧ L'.filter (fun x => x.2.2.owner = k) = L.filter (fun x => x.2.2.owner = k))
    (hself : ∀ a, g.accts.get? (eventAccount e) = some a → ∃ loss, 0 ≤ loss ∧ loss ≤ sumMaker fs (eventAccount e) (makerSlack m) ∧
      creditBase m e + sumOver (L'.filter (fun x => x.2.2.owner = eventAccount e)) (fun sd _ l => lockedBase m sd l) =
        sumOver (L.filter (fun x => x.2.2.owner = eventAccount e)) (fun sd _ l => lockedBase m sd l) + sumMaker fs (eventAccount e) (makerBase m) ∧
      creditQuote m a e + sumOver (L'.filter (fun x => x.2.2.owner = eventAccount e)) (fun sd c l => heldQuote m sd c l + heldFee m sd c l) =
        sumOver (L.filter (fun x => x.2.2.owner = eventAccount e)) (fun sd c l => heldQuote m sd c l + heldFee m sd c l) +
          sumMaker fs (eventAccount e) (makerQuote m) - loss) :
    Shift m g L g' L' fs (fun _ => 0) (fun _ => 0) := by
  intro k a ha
  have hf : g'.heap.events.filter (fun x => decide (eventAccount x = k)) =
      g.heap.events.filter (fun x => decide (eventAccount x = k)) ++ (if eventAccount e = k then [e] else []) := by
    rw [hheap, List.filter_append]; by_cases hk : eventAccount e = k <;> simp [hk]
  have hts : ∀ v, total (g'.heap.events.filter (fun x => decide (eventAccount x = k))) v =
      total (g.heap.events.filter (fun x => decide (eventAccount x = k))) v + (if eventAccount e = k then v e else 0) := by
    intro v; rw [hf]; by_cases hk : eventAccount e = k <;> simp [hk, total]
  by_cases hk : k = eventAccount e
  · subst hk
    obtain ⟨loss, h1, h2, h3, h4⟩ := hself a ha
    refine ⟨a, loss, by rw [hset]; exact ha, ?_, ?_, h1, h2⟩
    · unfold ldB; rw [hts, if_pos rfl]; simp only; omega
    · unfold ldQ; rw [hts, if_pos rfl]; simp only; omega
  · obtain ⟨h1, h2, h3, h6⟩ := hoth k hk
    have hk' : ¬ eventAccount e = k := fun h => hk h.symm
    refine ⟨a, 0, by rw [hset]; exact ha, ?_, ?_, Int.le_refl _, by omega⟩
    · unfold ldB; rw [hts, if_neg hk', h6]; simp only; omega
    · unfold ldQ; rw [hts, if_neg hk', h6]; simp only; omega

/-! ### a resting order leaves -/

theorem LInv.cancelShift {g : Ledger} {s : Side} {c : Comp} {l : LeafNode} {L : Rests} {dB dQ : Int} {ex : Pubkey → Int} {n : Nat}
    (h : LInv g ((s, c, l) :: L) dB dQ ex n) (hb : 0 < g.market.baseLotSize) (hq : 0 < g.market.quoteLotSize)
    {a a' : OOA} (ha : g.accts.get? l.owner = some a) (hc : a.cancelOrder l.ownerSlot l.quantity g.market = .ok a') :
    Shift g.market g ((s, c, l) :: L) { g with accts := g.accts.set l.owner a' } L [] (fun _ => 0) (fun _ => 0) := by
  have hr := h.released hb hq ha hc
  obtain ⟨h1, _⟩ := h.cancelRest hb hq ha hc
  refine shift_set (k0 := l.owner) (a0 := a) (a0' := a') rfl rfl ha ?_ ?_ 0 (Int.le_refl _) (Int.le_refl _) ?_ ?_
  · intro e he hk
    exact h1.lockedKept (e := e) he (by rw [hk]; exact Accts.get?_set_self _ ha) hr.slots
  · intro k hk
    refine ⟨rfl, rfl, rfl, rfl, rfl, ?_⟩
    rw [List.filter_cons_of_neg (by simpa using fun h => hk h.symm)]
  · rw [filter_owner_cons, if_pos rfl, hr.base, sumMaker_nil, sumOver_cons, sumOver_nil]; simp only; omega
  · rw [filter_owner_cons, if_pos rfl, hr.quote, sumMaker_nil, sumOver_cons, sumOver_nil]; simp only; omega

theorem LInv.processOutShift {g g' : Ledger} {s : Side} {c : Comp} {l : LeafNode} {L : Rests} {dB dQ : Int} {ex : Pubkey → Int} {n : Nat}
    (h : LInv g ((s, c, l) :: L) dB dQ ex n) (hb : 0 < g.market.baseLotSize) (hq : 0 < g.market.quoteLotSize)
    {ev : OutEvent} (he : OutOf ev s l) {hasOO : Bool} {owner : Pubkey} {rem : List Pubkey}
    (hp : processOutEvent ev hasOO owner rem g = .ok g') :
    Shift g.market g ((s, c, l) :: L) g' L [] (fun _ => 0) (fun _ => 0) := by
  have cancel : ∀ g'', (do
      let a ← g.accts.get ev.owner
      let a' ← a.cancelOrder ev.ownerSlot ev.quantity g.market
      return { g with accts := g.accts.set ev.owner a' } : R Ledger) = .ok g'' →
      Shift g.market g ((s, c, l) :: L) g'' L [] (fun _ => 0) (fun _ => 0) := by
    intro g'' hx
    simp only [bind_ok, pure_ok, Accts.get_ok] at hx
    obtain ⟨a, ha, a', hc, rfl⟩ := hx
    rw [he.owner] at ha ⊢
    rw [he.slot, he.qty] at hc
    exact h.cancelShift hb hq ha hc
  unfold processOutEvent at hp
  split at hp
  · rename_i hc; rw [hc.2] at hp; exact cancel _ hp
  split at hp
  · exact cancel _ hp
  · simp only [bind_ok, pure_ok] at hp
    obtain ⟨h', hpush, rfl⟩ := hp
    obtain ⟨oo, R, q, hw, hk⟩ := h.takeRest
    obtain ⟨slot, _, hr', _⟩ := pushBack_inv hw.heap hpush
    refine shift_push (e := .out ev) rfl (by show h'.events = _; rw [hr'.events, hw.heap.events]; simp) ?_ ?_
    · intro k hk
      refine ⟨rfl, rfl, rfl, ?_⟩
      rw [List.filter_cons_of_neg]
      simp only [decide_eq_true_eq]
      intro hx
      exact hk (by show k = ev.owner; rw [he.owner]; exact hx.symm)
    · intro a ha
      have hown : eventAccount (.out ev) = l.owner := he.owner
      rw [hown] at ha ⊢
      have hlink : a.openOrders[l.ownerSlot]? = some oo := hw.ginv.link (.rest s c l oo) (by simp) rfl a ha
      have hrest := (hw.ginv.ok (.rest s c l oo) (by simp)).rest _ _ _ _ rfl
      have hlk : s = .bid → lockedAt c l = oo.lockedPrice := by
        intro hs
        cases c with
        | fixed => exact (hrest.fixed rfl).2.2.2.symm
        | pegged => exact ((hrest.pegged rfl).2 hs).symm
      refine ⟨0, Int.le_refl _, Int.le_refl _, ?_, ?_⟩
      · rw [filter_owner_cons, if_pos rfl, sumMaker_nil]
        simp only [creditBase, lockedBase, he.side, he.qty]; omega
      · rw [filter_owner_cons, if_pos rfl, sumMaker_nil]
        have : eventLockedAt a (.out ev) = oo.lockedPrice := by simp only [eventLockedAt, he.slot, hlink]
        simp only [creditQuote, heldQuote, heldFee, he.side, he.qty, this]
        by_cases hs : s = .bid
        · simp only [hs, if_true, hlk hs]; omega
        · simp only [hs, if_false]; omega

/-! ### a resting order is filled -/

theorem sumOver_restAfter {f : FillEvent} {s : Side} {c : Comp} {l : LeafNode} (ho : f.makerOut = true ↔ l.quantity = f.quantity)
    (v : Side → Comp → LeafNode → Int) (h0 : v s c (l.withQty 0) = 0) :
    sumOver (restAfter f s c l) v = v s c (l.withQty (l.quantity - f.quantity)) := by
  unfold restAfter
  cases hm : f.makerOut with
  | true =>
    have := ho.mp hm
    rw [show l.quantity - f.quantity = 0 by omega, h0]; rfl
  | false => simp [sumOver]

theorem loss_bound {v w mf : Int} (hv : 0 ≤ v) (hw : 0 ≤ w) :
    0 ≤ ((v + w) * max mf 0 + 999999) / 1000000 - (w * max mf 0 + 999999) / 1000000 - v * max mf 0 / 1000000 ∧
    ((v + w) * max mf 0 + 999999) / 1000000 - (w * max mf 0 + 999999) / 1000000 - v * max mf 0 / 1000000 ≤ (if 0 < mf then 1 else 0) := by
  rw [Int.add_mul]
  by_cases h : 0 < mf
  · rw [if_pos h]
    generalize v * max mf 0 = x
    generalize w * max mf 0 = y
    omega
  · rw [if_neg h, Int.max_eq_right (by omega)]; simp

/-- What the fill of a resting order is worth to its owner. -/
theorem fill_worth {m : Market} {f : FillEvent} {s : Side} {c : Comp} {l : LeafNode} {oo : OpenOrder}
    (ho : OblOk m (.rest s c l oo)) (hf : FillOf m f c l) (hs : s = f.takerSide.invert) (hq : 0 < m.quoteLotSize) (a : OOA) :
    ∃ loss, 0 ≤ loss ∧ loss ≤ makerSlack m f ∧
      creditBase m (.fill f) + sumOver (restAfter f s c l) (fun sd _ l => lockedBase m sd l) = lockedBase m s l + makerBase m f ∧
      creditQuote m a (.fill f) + sumOver (restAfter f s c l) (fun sd c l => heldQuote m sd c l + heldFee m sd c l) =
        heldQuote m s c l + heldFee m s c l + makerQuote m f - loss := by
  have hrest := ho.rest _ _ _ _ rfl
  have r1 := sumOver_restAfter (s := s) (c := c) hf.out (fun sd _ l => lockedBase m sd l) (by
    show lockedBase m s (l.withQty 0) = 0
    unfold lockedBase; show (if s = Side.ask then (0 : Int) * m.baseLotSize else 0) = 0
    simp)
  have r2 := sumOver_restAfter (s := s) (c := c) hf.out (fun sd c l => heldQuote m sd c l + heldFee m sd c l) (by
    show heldQuote m s c (l.withQty 0) + heldFee m s c (l.withQty 0) = 0
    unfold heldQuote heldFee bidFee bidValue
    show (if s = Side.bid then (0 : Int) * lockedAt c (l.withQty 0) * m.quoteLotSize else 0) +
      (if s = Side.bid then ((0 : Int) * lockedAt c (l.withQty 0) * m.quoteLotSize * max m.makerFee 0 + 999999) / 1000000 else 0) = 0
    split <;> simp)
  rw [r1, r2]
  have hla : lockedAt c (l.withQty (l.quantity - f.quantity)) = lockedAt c l := by cases c <;> rfl
  have hlq : (l.withQty (l.quantity - f.quantity)).quantity = l.quantity - f.quantity := rfl
  simp only [lockedBase, heldQuote, heldFee, hla, hlq, creditBase, creditQuote, makerBase, makerQuote, makerSlack]
  cases ht : f.takerSide with
  | bid =>
    have hs' : s = .ask := by rw [hs, ht]; rfl
    subst hs'
    refine ⟨0, Int.le_refl _, by simp, ?_, ?_⟩
    · simp only [if_true, reduceCtorEq, if_false]; rw [Int.sub_mul]; omega
    · simp only [if_true, reduceCtorEq, if_false]; omega
  | ask =>
    have hs' : s = .bid := by rw [hs, ht]; rfl
    subst hs'
    have hl1 : 1 ≤ lockedAt c l := by
      cases c with
      | fixed => have := (hrest.fixed rfl).1; show (1 : Int) ≤ l.priceData; omega
      | pegged => exact (hrest.pegged rfl).1
    have hp := hf.pos
    have hle := hf.le
    have hV : 0 ≤ f.quantity * lockedAt c l * m.quoteLotSize := Int.mul_nonneg (Int.mul_nonneg (by omega) (by omega)) (by omega)
    have hW : 0 ≤ (l.quantity - f.quantity) * lockedAt c l * m.quoteLotSize := Int.mul_nonneg (Int.mul_nonneg (by omega) (by omega)) (by omega)
    have hVW : l.quantity * lockedAt c l * m.quoteLotSize =
        f.quantity * lockedAt c l * m.quoteLotSize + (l.quantity - f.quantity) * lockedAt c l * m.quoteLotSize := by
      rw [Int.sub_mul, Int.sub_mul]; omega
    obtain ⟨b1, b2⟩ := loss_bound (mf := m.makerFee) hV hW
    have hfl : fillLocked m f = f.quantity * lockedAt c l * m.quoteLotSize := by
      unfold fillLocked fillQuote
      cases c with
      | fixed => rw [if_pos (by rw [hf.peg]; exact (hrest.fixed rfl).2.2.1), hf.fixed rfl]; rfl
      | pegged =>
        rw [if_neg (by rw [hf.peg]; have := (hrest.pegged rfl).1; omega), hf.peg]; rfl
    simp only [if_true, reduceCtorEq, if_false, bidFee, bidValue, true_and]
    rw [hVW]
    -- the fee released
    by_cases hx : f.maker = f.taker ∧ f.pegLimit = -1
    · have e1 : fillLockedFee m f = 0 := by unfold fillLockedFee fillMakerFee; rw [if_pos hx.2, if_pos hx.1]
      have e2 : fillQuote m f = f.quantity * lockedAt c l * m.quoteLotSize := by rw [← hfl]; unfold fillLocked; rw [if_pos hx.2]
      refine ⟨((f.quantity * lockedAt c l * m.quoteLotSize + (l.quantity - f.quantity) * lockedAt c l * m.quoteLotSize) * max m.makerFee 0 + 999999) / 1000000 -
        ((l.quantity - f.quantity) * lockedAt c l * m.quoteLotSize * max m.makerFee 0 + 999999) / 1000000, ?_, ?_, by omega, by rw [e1, hfl]; omega⟩
      · have : 0 ≤ f.quantity * lockedAt c l * m.quoteLotSize * max m.makerFee 0 / 1000000 :=
          Int.ediv_nonneg (Int.mul_nonneg hV (by omega)) (by decide)
        omega
      · by_cases hmf : 0 < m.makerFee
        · rw [if_pos hmf, if_pos hx.1, e2]
          rw [if_pos hmf, Int.max_eq_left (Int.le_of_lt hmf)] at b2
          rw [Int.max_eq_left (Int.le_of_lt hmf)]
          omega
        · rw [if_neg hmf] at b2 ⊢
          rw [Int.max_eq_right (by omega)] at b2 ⊢
          simp at b2 ⊢
    · have e1 : fillLockedFee m f = f.quantity * lockedAt c l * m.quoteLotSize * max m.makerFee 0 / 1000000 := by
        unfold fillLockedFee fillMakerFee
        by_cases hpl : f.pegLimit = -1
        · rw [if_pos hpl, if_neg (fun h => hx ⟨h, hpl⟩)]
          have : fillQuote m f = fillLocked m f := by unfold fillLocked; rw [if_pos hpl]
          rw [this, hfl]
        · rw [if_neg hpl, hfl]
      refine ⟨_, b1, ?_, by omega, by rw [e1, hfl]; omega⟩
      refine Int.le_trans b2 ?_
      by_cases hmf : 0 < m.makerFee
      · rw [if_pos hmf, if_pos hmf]
        split
        · have hpos : 0 ≤ fillQuote m f := by
            unfold fillQuote
            have : 1 ≤ f.price := by
              cases c with
              | fixed => rw [hf.fixed rfl]; have := (hrest.fixed rfl).1; omega
              | pegged => exact (hf.pegged rfl).1
            exact Int.mul_nonneg (Int.mul_nonneg (by omega) (by omega)) (by omega)
          have : 0 ≤ fillQuote m f * m.makerFee / 1000000 := Int.ediv_nonneg (Int.mul_nonneg hpos (by omega)) (by decide)
          omega
        · omega
      · rw [if_neg hmf, if_neg hmf]; exact Int.le_refl _

theorem restAfter_other {f : FillEvent} {s : Side} {c : Comp} {l : LeafNode} {L : Rests} {k : Pubkey} (hk : k ≠ l.owner) :
    (restAfter f s c l ++ L).filter (fun x => decide (x.2.2.owner = k)) = ((s, c, l) :: L).filter (fun x => decide (x.2.2.owner = k)) := by
  have h1 : ¬ l.owner = k := fun h => hk h.symm
  rw [List.filter_append, List.filter_cons_of_neg (by simpa using h1)]
  unfold restAfter
  split
  · rfl
  · have h2 : ¬ (l.withQty (l.quantity - f.quantity)).owner = k := h1
    simp [h2]

theorem restAfter_own {f : FillEvent} {s : Side} {c : Comp} {l : LeafNode} {L : Rests} (v : Side → Comp → LeafNode → Int) :
    sumOver ((restAfter f s c l ++ L).filter (fun x => decide (x.2.2.owner = l.owner))) v =
      sumOver (restAfter f s c l) v + sumOver (L.filter (fun x => decide (x.2.2.owner = l.owner))) v := by
  rw [List.filter_append, sumOver_append]
  congr 1
  unfold restAfter
  split
  · rfl
  · have : (l.withQty (l.quantity - f.quantity)).owner = l.owner := rfl
    simp [this]

theorem LInv.processFillShift {g g' : Ledger} {s : Side} {c : Comp} {l : LeafNode} {L : Rests} {dB dQ : Int} {ex : Pubkey → Int} {n : Nat}
    (h : LInv g ((s, c, l) :: L) dB dQ ex n) (hb : 0 < g.market.baseLotSize) (hq : 0 < g.market.quoteLotSize)
    {f : FillEvent} (hf : FillOf g.market f c l) (hs : s = f.takerSide.invert) {hasOO : Bool} {owner : Pubkey} {rem : List Pubkey}
    {p p' : Nat} (hp : processFillEvent f hasOO owner rem g p = .ok (g', p')) :
    Shift g.market g ((s, c, l) :: L) g' (restAfter f s c l ++ L) [f] (fun _ => 0) (fun _ => 0) := by
  obtain ⟨hafter, _, _, _⟩ := h.processFill hb hq hf hs hp
  obtain ⟨oo, R, q, hw, hk⟩ := h.takeRest
  have hok := hw.ginv.ok (.rest s c l oo) (by simp)
  have hrepl := fillRepl hok hf hs hb hq
  have hg := hw.ginv.replace hrepl
  have hone : ∀ v, sumMaker [f] l.owner v = v f := fun v => by rw [sumMaker_one, if_pos hf.maker]
  have hzero : ∀ k v, k ≠ l.owner → sumMaker [f] k v = 0 := fun k v hk => by
    rw [sumMaker_one, if_neg (by rw [hf.maker]; exact fun h => hk h.symm)]
  unfold processFillEvent at hp
  split at hp
  · split at hp
    · cases hp
    · simp only [bind_ok, pure_ok, Accts.get_ok] at hp
      obtain ⟨a, ha, ⟨a', m'⟩, hm, hp⟩ := hp
      cases hp
      rw [List.cons_append] at hg
      obtain ⟨hcr, _⟩ := GInv.deliver_credit hg hb hq ha hm
      obtain ⟨loss, w1, w2, w3, w4⟩ := fill_worth hok hf hs hq a
      have hcb := hcr.base
      have hcq := hcr.quote
      rw [total_one] at hcb hcq
      have hsl := hcr.slots
      have hmk := hf.maker
      rw [hmk] at ha hsl hafter ⊢
      refine shift_set (k0 := l.owner) (a0 := a) (a0' := a') rfl rfl ha ?_ ?_ loss w1 (by rw [hone]; exact w2) ?_ ?_
      · intro e he hke
        exact hafter.lockedKept (e := e) he (by rw [hke]; exact Accts.get?_set_self _ ha) hsl
      · intro k hk
        exact ⟨hzero _ _ hk, hzero _ _ hk, hzero _ _ hk, rfl, rfl, restAfter_other hk⟩
      · rw [restAfter_own, filter_owner_cons, if_pos rfl, hone, hcb]; simp only; omega
      · rw [restAfter_own, filter_owner_cons, if_pos rfl, hone, hcq]; simp only; omega
  · simp only [bind_ok, pure_ok] at hp
    obtain ⟨h', hpush, hp⟩ := hp
    cases hp
    obtain ⟨slot, _, hr', _⟩ := pushBack_inv hw.heap hpush
    refine shift_push (e := .fill f) rfl (by show h'.events = _; rw [hr'.events, hw.heap.events]; simp) ?_ ?_
    · intro k hk
      have hk' : k ≠ l.owner := by rw [← hf.maker]; exact hk
      exact ⟨hzero _ _ hk', hzero _ _ hk', hzero _ _ hk', restAfter_other hk'⟩
    · intro a ha
      have hown : eventAccount (.fill f) = l.owner := hf.maker
      rw [hown] at ha ⊢
      obtain ⟨loss, w1, w2, w3, w4⟩ := fill_worth hok hf hs hq a
      refine ⟨loss, w1, by rw [hone]; exact w2, ?_, ?_⟩
      · rw [restAfter_own, filter_owner_cons, if_pos rfl, hone]; simp only; omega
      · rw [restAfter_own, filter_owner_cons, if_pos rfl, hone]; simp only; omega

end OB
