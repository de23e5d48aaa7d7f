import Verif.Spec.Logs
import Verif.Proofs.Bridge
import Verif.Proofs.Crank
/-! What the log records say about the matching engine and the delivery of events. -/
namespace OB
open Spec

/-! ### lists of records -/

theorem fillLogs_append (A B : List Log) : fillLogs (A ++ B) = fillLogs A ++ fillLogs B := List.filterMap_append ..
theorem signatures_append (A B : List Log) : signatures (A ++ B) = signatures A ++ signatures B := List.filterMap_append ..
theorem totalLogs_append (A B : List Log) : totalLogs (A ++ B) = totalLogs A ++ totalLogs B := List.filterMap_append ..

/-- Value of a fill as the program computes it. -/
def rawQuote (m : Market) (f : FillEvent) : Int := asU64 (f.quantity * f.price * m.quoteLotSize)

/-- The record as the program computes it. -/
structure Written (m : Market) (l : FillLog) (f : FillEvent) : Prop where
  range : inI64' (f.quantity * f.price * m.quoteLotSize)
  fee : (if f.maker = f.taker then .ok 0 else m.makerFeesFloor (rawQuote m f)) = (.ok l.makerFee : R Int)
  taker : (if rawQuote m f > 0 ∧ f.maker ≠ f.taker then m.takerFeesCeil (rawQuote m f) else .ok 0) = (.ok l.takerFeeCeil : R Int)
  res : l = { takerSide := f.takerSide, makerSlot := f.makerSlot, makerOut := f.makerOut, timestamp := f.timestamp,
              seqNum := f.marketSeqNum, maker := f.maker, makerClientOrderId := f.makerClientOrderId, makerFee := l.makerFee,
              makerTimestamp := f.makerTimestamp, taker := f.taker, takerClientOrderId := f.takerClientOrderId,
              takerFeeCeil := l.takerFeeCeil, price := f.price, quantity := f.quantity }

/-- The parts of the market that the records depend on do not change. -/
structure SameRates (m m' : Market) : Prop where
  lots : m'.quoteLotSize = m.quoteLotSize
  maker : m'.makerFee = m.makerFee
  taker : m'.takerFee = m.takerFee

theorem SameRates.refl (m : Market) : SameRates m m := ⟨rfl, rfl, rfl⟩
theorem SameRates.trans {a b c : Market} (h : SameRates a b) (h' : SameRates b c) : SameRates a c :=
  ⟨h'.lots.trans h.lots, h'.maker.trans h.maker, h'.taker.trans h.taker⟩

theorem SameRates.raw {m m' : Market} (h : SameRates m m') (f : FillEvent) : rawQuote m' f = rawQuote m f := by
  unfold rawQuote; rw [h.lots]

theorem Written.rates {m m' : Market} (h : SameRates m m') {l : FillLog} {f : FillEvent} (w : Written m' l f) : Written m l f := by
  obtain ⟨a, b, c, d⟩ := w
  refine ⟨by rw [← h.lots]; exact a, ?_, ?_, d⟩
  · rw [h.raw] at b
    rw [← b]
    unfold Market.makerFeesFloor Market.unsignedMakerFeesFloor
    rw [h.maker]
  · rw [h.raw] at c
    rw [← c]
    unfold Market.takerFeesCeil
    rw [h.taker]

def sumOf {α : Type} (xs : List α) (v : α → Int) : Int := (xs.map v).sum

theorem sumOf_append {α : Type} (xs ys : List α) (v : α → Int) : sumOf (xs ++ ys) v = sumOf xs v + sumOf ys v := by
  simp [sumOf]
theorem sumOf_nil {α : Type} (v : α → Int) : sumOf [] v = 0 := rfl
theorem sumOf_one {α : Type} (x : α) (v : α → Int) : sumOf [x] v = v x := by simp [sumOf]

/-- From ledger `g` to `g'` the fills `cr` have been created and the fills `dn` delivered; the records `L` have been written. -/
structure Emits (g : Ledger) (cr : List FillEvent) (g' : Ledger) (L : List Log) (dn : List FillEvent) : Prop where
  heap : ∃ q, HeapRep g'.heap q
  sigs : signatures L = cr.map (·.marketSeqNum)
  logs : List.Forall₂ (Written g.market) (fillLogs L) dn
  queue : (queuedFills g ++ cr).Perm (dn ++ queuedFills g')
  rates : SameRates g.market g'.market
  mvol : g'.market.makerVolume = g.market.makerVolume + sumOf dn (rawQuote g.market)
  keys : ∀ k, (g'.accts.get? k).isSome = (g.accts.get? k).isSome
  maker : ∀ k a a', g.accts.get? k = some a → g'.accts.get? k = some a' →
    a'.position.makerVolume = a.position.makerVolume + sumOf (dn.filter (fun f => f.maker = k)) (rawQuote g.market)
  taker : ∀ k a a', g.accts.get? k = some a → g'.accts.get? k = some a' →
    a'.position.takerVolume = a.position.takerVolume + sumOf ((totalLogs L).filter (fun t => t.taker = k)) totalValue
  walk : g'.market.takerVolumeWoOo = g.market.takerVolumeWoOo +
    sumOf ((totalLogs L).filter (fun t => (g.accts.get? t.taker).isNone)) totalValue
  known : ∀ f ∈ dn, (g.accts.get? f.maker).isSome
  shown : ∀ k a a', g.accts.get? k = some a → g'.accts.get? k = some a' →
    (a'.position.makerVolume, a'.position.takerVolume) = volumesRead L k a

theorem volumesRead_append (A B : List Log) (k : Pubkey) (a b : OOA) (hb : (b.position.makerVolume, b.position.takerVolume) = volumesRead A k a) :
    volumesRead (A ++ B) k a = volumesRead B k b := by
  have e : lastPosition (A ++ B) k = (lastPosition B k).or (lastPosition A k) := by
    unfold lastPosition positionLogs
    rw [List.filterMap_append, List.filter_append, List.getLast?_append]
  unfold volumesRead at hb ⊢
  rw [e]
  cases lastPosition B k with
  | some l => rfl
  | none => simp only [Option.none_or]; exact hb.symm

theorem volumesRead_none {L : List Log} {k : Pubkey} {a : OOA} (h : ∀ l ∈ positionLogs L, l.account ≠ k) :
    volumesRead L k a = (a.position.makerVolume, a.position.takerVolume) := by
  unfold volumesRead lastPosition
  rw [List.filter_eq_nil_iff.mpr (by simpa using h)]
  rfl

theorem volumesRead_last {L : List Log} {k : Pubkey} {a a' : OOA} (h : ∃ l, positionLogs L = [l] ∧ positionLog k a'.position = .position l) :
    volumesRead L k a = (a'.position.makerVolume, a'.position.takerVolume) := by
  obtain ⟨l, h1, h2⟩ := h
  injection h2 with h2
  unfold volumesRead lastPosition
  rw [h1, ← h2]
  simp

theorem Emits.refl {g : Ledger} {q : List (Nat × Event)} (h : HeapRep g.heap q) : Emits g [] g [] [] := by
  refine ⟨⟨q, h⟩, rfl, .nil, by simp, .refl _, by simp [sumOf], fun _ => rfl, ?_, ?_, by simp [sumOf, totalLogs], by simp, ?_⟩
  · intro k a a' h1 h2; rw [h1] at h2; injection h2 with h2; subst h2; simp [sumOf]
  · intro k a a' h1 h2; rw [h1] at h2; injection h2 with h2; subst h2; simp [sumOf, totalLogs]
  · intro k a a' h1 h2; rw [h1] at h2; injection h2 with h2; subst h2; rfl

theorem Emits.trans {g g1 g2 : Ledger} {c1 c2 d1 d2 : List FillEvent} {L1 L2 : List Log} (h1 : Emits g c1 g1 L1 d1)
    (h2 : Emits g1 c2 g2 L2 d2) : Emits g (c1 ++ c2) g2 (L1 ++ L2) (d1 ++ d2) := by
  have hraw : rawQuote g1.market = rawQuote g.market := funext h1.rates.raw
  refine ⟨h2.heap, ?_, ?_, ?_, h1.rates.trans h2.rates, ?_, fun k => (h2.keys k).trans (h1.keys k), ?_, ?_, ?_, ?_, ?_⟩
  · rw [signatures_append, h1.sigs, h2.sigs, List.map_append]
  · rw [fillLogs_append]
    exact List.rel_append h1.logs (h2.logs.imp (fun _ _ => Written.rates h1.rates))
  · rw [← List.append_assoc, List.append_assoc d1]
    refine (h1.queue.append_right c2).trans ?_
    rw [List.append_assoc]
    exact h2.queue.append_left d1
  · rw [h2.mvol, h1.mvol, sumOf_append, hraw]; omega
  · intro k a a' ha ha'
    have hk := h1.keys k
    rw [ha] at hk
    obtain ⟨b, hb⟩ := Option.isSome_iff_exists.mp hk
    rw [h2.maker k b a' hb ha', h1.maker k a b ha hb, List.filter_append, sumOf_append, hraw]; omega
  · intro k a a' ha ha'
    have hk := h1.keys k
    rw [ha] at hk
    obtain ⟨b, hb⟩ := Option.isSome_iff_exists.mp hk
    rw [h2.taker k b a' hb ha', h1.taker k a b ha hb, totalLogs_append, List.filter_append, sumOf_append]; omega
  · have e : (totalLogs L2).filter (fun t => (g1.accts.get? t.taker).isNone) = (totalLogs L2).filter (fun t => (g.accts.get? t.taker).isNone) := by
      congr 1
      funext t
      have := h1.keys t.taker
      cases h : g1.accts.get? t.taker <;> cases h' : g.accts.get? t.taker <;> rw [h, h'] at this <;> simp_all
    rw [h2.walk, h1.walk, totalLogs_append, List.filter_append, sumOf_append, e]; omega
  · intro f hf
    rcases List.mem_append.mp hf with hf | hf
    · exact h1.known f hf
    · rw [← h1.keys]; exact h2.known f hf
  · intro k a a' ha ha'
    have hk := h1.keys k
    rw [ha] at hk
    obtain ⟨b, hb⟩ := Option.isSome_iff_exists.mp hk
    rw [volumesRead_append L1 L2 k a b (h1.shown k a b ha hb)]
    exact h2.shown k b a' hb ha'

/-- Nothing is created, delivered or written. -/
abbrev Quiet (g g' : Ledger) : Prop := Emits g [] g' [] []

theorem quiet_of {g g' : Ledger} (hh : ∃ q, HeapRep g'.heap q) (hq : queuedFills g' = queuedFills g) (hr : SameRates g.market g'.market)
    (hm : g'.market.makerVolume = g.market.makerVolume)
    (hw : g'.market.takerVolumeWoOo = g.market.takerVolumeWoOo) (hk : ∀ k, (g'.accts.get? k).isSome = (g.accts.get? k).isSome)
    (ha : ∀ k a a', g.accts.get? k = some a → g'.accts.get? k = some a' → a'.position.makerVolume = a.position.makerVolume ∧
      a'.position.takerVolume = a.position.takerVolume) : Quiet g g' := by
  refine ⟨hh, rfl, .nil, by rw [hq]; simp, hr, by simp [sumOf, hm], hk, ?_, ?_, by simp [sumOf, totalLogs, hw], by simp, ?_⟩
  · intro k a a' h1 h2; simp [sumOf, (ha k a a' h1 h2).1]
  · intro k a a' h1 h2; simp [sumOf, totalLogs, (ha k a a' h1 h2).2]
  · intro k a a' h1 h2; rw [(ha k a a' h1 h2).1, (ha k a a' h1 h2).2]; rfl

theorem set_keys {as : Accts} {k : Pubkey} {a a' : OOA} (h : as.get? k = some a) (j : Pubkey) : ((as.set k a').get? j).isSome = (as.get? j).isSome := by
  by_cases hj : j = k
  · subst hj; rw [Accts.get?_set_self _ h, h]; rfl
  · rw [Accts.get?_set_ne _ hj]

theorem set_vols {as : Accts} {k : Pubkey} {b b' : OOA} (h : as.get? k = some b) {j : Pubkey} {a a' : OOA} (h1 : as.get? j = some a)
    (h2 : (as.set k b').get? j = some a') : (j = k ∧ a = b ∧ a' = b') ∨ (j ≠ k ∧ a' = a) := by
  by_cases hj : j = k
  · subst hj
    rw [Accts.get?_set_self _ h] at h2
    rw [h] at h1
    injection h1 with h1; injection h2 with h2
    exact .inl ⟨rfl, h1.symm, h2.symm⟩
  · rw [Accts.get?_set_ne _ hj, h1] at h2
    injection h2 with h2
    exact .inr ⟨hj, h2.symm⟩

/-- An account is changed, not its volumes. -/
theorem quiet_set {g : Ledger} {k : Pubkey} {b b' : OOA} (hh : ∃ q, HeapRep g.heap q) (h : g.accts.get? k = some b)
    (h1 : b'.position.makerVolume = b.position.makerVolume) (h2 : b'.position.takerVolume = b.position.takerVolume) :
    Quiet g { g with accts := g.accts.set k b' } := by
  refine quiet_of hh rfl (.refl _) rfl rfl (set_keys h) (fun j a a' ha ha' => ?_)
  rcases set_vols h ha ha' with ⟨_, rfl, rfl⟩ | ⟨_, rfl⟩
  · exact ⟨h1, h2⟩
  · exact ⟨rfl, rfl⟩

theorem cancel_vols {a a' : OOA} {slot : Nat} {q : Int} {m : Market} (h : a.cancelOrder slot q m = .ok a') :
    a'.position.makerVolume = a.position.makerVolume ∧ a'.position.takerVolume = a.position.takerVolume := by
  obtain ⟨oo, fees, hc⟩ := cancelOrder_inv h
  rw [hc.res]
  cases oo.side <;> exact ⟨rfl, rfl⟩

theorem queued_push {g : Ledger} {q : List (Nat × Event)} (hr : HeapRep g.heap q) {e : Event} {h' : EventHeap} (hp : g.heap.pushBack e = .ok h') :
    (∃ q', HeapRep h' q') ∧ h'.events = g.heap.events ++ [e] := by
  obtain ⟨s, _, h2, _⟩ := pushBack_inv hr hp
  exact ⟨⟨_, h2⟩, by rw [h2.events, hr.events, List.map_append]; rfl⟩

theorem processOut_quiet {ev : OutEvent} {b : Bool} {o : Pubkey} {rem : List Pubkey} {g g' : Ledger} (hh : ∃ q, HeapRep g.heap q)
    (h : processOutEvent ev b o rem g = .ok g') : Quiet g g' := by
  unfold processOutEvent at h
  split at h
  · simp only [bind_ok, pure_ok, Accts.get_ok] at h
    obtain ⟨a, ha, a', hc, rfl⟩ := h
    exact quiet_set hh ha (cancel_vols hc).1 (cancel_vols hc).2
  · split at h
    · simp only [bind_ok, pure_ok, Accts.get_ok] at h
      obtain ⟨a, ha, a', hc, rfl⟩ := h
      exact quiet_set hh ha (cancel_vols hc).1 (cancel_vols hc).2
    · simp only [bind_ok, pure_ok] at h
      obtain ⟨h', hp, rfl⟩ := h
      obtain ⟨q, hq⟩ := hh
      obtain ⟨h1, h2⟩ := queued_push hq hp
      refine quiet_of h1 ?_ (.refl _) rfl rfl (fun _ => rfl) (fun k a a' h3 h4 => ?_)
      · unfold queuedFills; simp only; rw [h2, List.filterMap_append]; simp
      · rw [h3] at h4; injection h4 with h4; subst h4; exact ⟨rfl, rfl⟩

/-- What `execute_maker` does to volumes, and its records. -/
theorem makerLogs_run {a a' : OOA} {m m' : Market} {f : FillEvent} (h : a.executeMaker m f = .ok (a', m')) :
    ∃ l, makerLogs a m f = .ok [.fill l, positionLog f.maker a'.position] ∧ Written m l f ∧ SameRates m m' ∧
      m'.seqNum = m.seqNum ∧ m'.makerVolume = m.makerVolume + rawQuote m f ∧ m'.takerVolumeWoOo = m.takerVolumeWoOo ∧
      a'.position.makerVolume = a.position.makerVolume + rawQuote m f ∧ a'.position.takerVolume = a.position.takerVolume := by
  obtain ⟨mf, rb, lf, ab, hr⟩ := executeMaker_inv h
  have hx := h
  unfold OOA.executeMaker at hx
  simp only [ite_bind] at hx
  simp only [bind_ok, ckI64_ok, ckU64_ok, ckU128_ok, pure_ok] at hx
  obtain ⟨_, ⟨h1, rfl⟩, _, ⟨h2, rfl⟩, mf', h3, _, _, ⟨_, _, _⟩, _, _, _, _, ⟨_, rfl⟩, _, ⟨_, rfl⟩, _, ⟨_, rfl⟩,
    _, ⟨_, rfl⟩, _, ⟨_, rfl⟩, _, _, tf, h13, h14⟩ := hx
  have em : m' = { m with
      referrerRebatesAccrued := m.referrerRebatesAccrued + mf'
      makerVolume := m.makerVolume + asU64 (f.quantity * f.price * m.quoteLotSize)
      feesAccrued := m.feesAccrued + mf' } := by injection h14 with _ e; exact e.symm
  refine ⟨{ takerSide := f.takerSide, makerSlot := f.makerSlot, makerOut := f.makerOut, timestamp := f.timestamp,
              seqNum := f.marketSeqNum, maker := f.maker, makerClientOrderId := f.makerClientOrderId, makerFee := mf',
              makerTimestamp := f.makerTimestamp, taker := f.taker, takerClientOrderId := f.takerClientOrderId,
              takerFeeCeil := tf, price := f.price, quantity := f.quantity }, ?_, ⟨h2, h3, ?_, rfl⟩, ?_, ?_, ?_, ?_, ?_⟩
  · unfold makerLogs
    rw [h]
    simp only [ok_bind, ckI64_eq h1.1 h1.2, ckI64_eq h2.1 h2.2]
    rw [← em] at h13
    by_cases hs : f.maker = f.taker
    · rw [if_pos hs] at h3
      rw [if_neg (fun h => h.2 hs)] at h13
      injection h3 with h3; injection h13 with h13
      rw [if_pos hs, if_neg (fun h => h.2 hs), ← h3, ← h13]; rfl
    · rw [if_neg hs] at h3
      rw [if_neg hs, h3, ok_bind]
      by_cases hz : asU64 (f.quantity * f.price * m.quoteLotSize) > 0
      · rw [if_pos ⟨hz, hs⟩] at h13 ⊢
        rw [h13]; rfl
      · rw [if_neg (fun h => hz h.1)] at h13 ⊢
        injection h13 with h13
        rw [h13]; rfl
  · exact h13
  · rw [em]; exact ⟨rfl, rfl, rfl⟩
  · rw [em]
  · rw [em]; rfl
  · rw [em]
  · have hv : ∀ side, (makerPos side a.position (asU64 (f.quantity * m.baseLotSize)) (asU64 (f.quantity * f.price * m.quoteLotSize))
        mf rb lf ab).makerVolume = a.position.makerVolume + rawQuote m f ∧
        (makerPos side a.position (asU64 (f.quantity * m.baseLotSize)) (asU64 (f.quantity * f.price * m.quoteLotSize))
        mf rb lf ab).takerVolume = a.position.takerVolume := by
      intro side; cases side <;> exact ⟨rfl, rfl⟩
    have hrel : ∀ side p q lp, (relPos side p q lp).makerVolume = p.makerVolume ∧ (relPos side p q lp).takerVolume = p.takerVolume := by
      intro side p q lp; cases side <;> exact ⟨rfl, rfl⟩
    cases ho : f.makerOut with
    | false =>
      rw [hr.part ho]
      exact ⟨(hrel _ _ _ _).1.trans (hv _).1, (hrel _ _ _ _).2.trans (hv _).2⟩
    | true =>
      obtain ⟨oo, hrm⟩ := hr.out ho
      rw [hrm.res]
      exact ⟨(hrel _ _ _ _).1.trans (hv _).1, (hrel _ _ _ _).2.trans (hv _).2⟩

/-- A fill is delivered at once. -/
theorem emits_deliver {g : Ledger} {f : FillEvent} {a a' : OOA} {m' : Market} (hh : ∃ q, HeapRep g.heap q) (ha : g.accts.get? f.maker = some a)
    (h : a.executeMaker g.market f = .ok (a', m')) :
    ∃ L, makerLogs a g.market f = .ok L ∧ signatures L = [] ∧ totalLogs L = [] ∧
      (∃ l, fillLogs L = [l] ∧ Written g.market l f) ∧ SameRates g.market m' ∧ m'.seqNum = g.market.seqNum ∧
      m'.makerVolume = g.market.makerVolume + rawQuote g.market f ∧ m'.takerVolumeWoOo = g.market.takerVolumeWoOo ∧
      (∀ k, ((g.accts.set f.maker a').get? k).isSome = (g.accts.get? k).isSome) ∧
      (∀ k b b', g.accts.get? k = some b → (g.accts.set f.maker a').get? k = some b' →
        b'.position.makerVolume = b.position.makerVolume + (if f.maker = k then rawQuote g.market f else 0) ∧
        b'.position.takerVolume = b.position.takerVolume) ∧
      (∀ k b b', g.accts.get? k = some b → (g.accts.set f.maker a').get? k = some b' →
        (b'.position.makerVolume, b'.position.takerVolume) = volumesRead L k b) := by
  obtain ⟨l, h1, h2, h3, h4, h5, h6, h7, h8⟩ := makerLogs_run h
  refine ⟨_, h1, rfl, rfl, ⟨l, rfl, h2⟩, h3, h4, h5, h6, set_keys ha, fun k b b' hb hb' => ?_, fun k b b' hb hb' => ?_⟩
  rotate_left
  · rcases set_vols ha hb hb' with ⟨rfl, rfl, rfl⟩ | ⟨e, rfl⟩
    · exact (volumesRead_last ⟨_, rfl, rfl⟩).symm
    · refine (volumesRead_none ?_).symm
      intro l hl
      simp only [positionLogs, positionLog, List.filterMap_cons, List.filterMap_nil, List.mem_singleton] at hl
      subst hl
      exact Ne.symm e
  rcases set_vols ha hb hb' with ⟨e, rfl, rfl⟩ | ⟨e, rfl⟩
  · rw [if_pos e.symm]; exact ⟨h7, h8⟩
  · rw [if_neg (Ne.symm e)]; exact ⟨by omega, rfl⟩

theorem emits_fill {f : FillEvent} {b : Bool} {o : Pubkey} {rem : List Pubkey} {g g' : Ledger} {n n' : Nat} (hh : ∃ q, HeapRep g.heap q)
    (hs : f.marketSeqNum = g.market.seqNum) (h : processFillEvent f b o rem g n = .ok (g', n')) :
    ∃ L dn, processFillLogs f rem g n = .ok L ∧ totalLogs L = [] ∧ Emits g [f] g' (.takerSignature g.market.seqNum :: L) dn := by
  unfold processFillEvent at h
  unfold processFillLogs
  split at h
  · rename_i hc
    rw [if_pos hc]
    split at h
    · cases h
    simp only [bind_ok, pure_ok, Accts.get_ok] at h
    obtain ⟨a, ha, ⟨a', m'⟩, hx, h⟩ := h
    injection h with e1 e2
    subst e1
    obtain ⟨L, h1, h2, h3, ⟨l, h4, h5⟩, h6, h7, h8, h9, h10, h11, h12⟩ := emits_deliver hh ha hx
    refine ⟨L, [f], ?_, h3, hh, ?_, ?_, ?_, h6, ?_, h10, ?_, ?_, ?_, by simp [ha], h12⟩
    · rw [(Accts.get_ok).mpr ha, ok_bind, h1]
    · show g.market.seqNum :: signatures L = _
      rw [h2, List.map_cons, hs]; rfl
    · show List.Forall₂ _ (fillLogs L) _
      rw [h4]; exact .cons h5 .nil
    · exact List.perm_append_comm
    · rw [sumOf_one]; exact h8
    · intro k b b' hb hb'
      rw [(h11 k b b' hb hb').1]
      by_cases hk : f.maker = k
      · simp [sumOf, hk]
      · simp [sumOf, hk]
    · intro k b b' hb hb'
      show _ = _ + sumOf ((totalLogs L).filter _) _
      rw [h3, (h11 k b b' hb hb').2]; simp [sumOf]
    · show _ = _ + sumOf ((totalLogs L).filter _) _
      rw [h3, h9]; simp [sumOf]
  · rename_i hc
    rw [if_neg hc]
    simp only [bind_ok, pure_ok] at h
    obtain ⟨h', hp, h⟩ := h
    injection h with e1 e2
    subst e1
    obtain ⟨q, hq⟩ := hh
    obtain ⟨h1, h2⟩ := queued_push hq hp
    refine ⟨[], [], rfl, rfl, h1, ?_, .nil, ?_, .refl _, by simp [sumOf], fun _ => rfl, ?_, ?_, by simp [sumOf, totalLogs], by simp, ?_⟩
    · show [g.market.seqNum] = _
      rw [List.map_cons, hs]; rfl
    · unfold queuedFills; simp only; rw [h2, List.filterMap_append]; simp
    · intro k a a' h3 h4; rw [h3] at h4; injection h4 with h4; subst h4; simp [sumOf]
    · intro k a a' h3 h4; rw [h3] at h4; injection h4 with h4; subst h4; simp [sumOf, totalLogs]
    · intro k a a' h3 h4; rw [h3] at h4; injection h4 with h4; subst h4; rfl

/-- One iteration of the matching loop. -/
theorem emits_step {env : Env} {p : Int} {i : IterItem} {s s' : MatchSt} {go : Bool} (hh : ∃ q, HeapRep s.g.heap q)
    (h : matchStep env p i s = .ok (go, s')) :
    ∃ L dn cr, matchStepLogs env p i s = .ok L ∧ totalLogs L = [] ∧ s'.fills = s.fills ++ cr ∧ Emits s.g cr s'.g L dn := by
  have quiet : s'.fills = s.fills → Quiet s.g s'.g → ∃ L dn cr, matchStepLogs env p i s = .ok L ∧ totalLogs L = [] ∧ s'.fills = s.fills ++ cr ∧ Emits s.g cr s'.g L dn := by
    intro e hq
    refine ⟨[], [], [], ?_, rfl, by simp [e], hq⟩
    unfold matchStepLogs
    rw [h, ok_bind]
    simp only
    rw [e, List.drop_length]
    rfl
  have filled : ∀ f n', s'.fills = s.fills ++ [f] → f.marketSeqNum = s.g.market.seqNum →
      processFillEvent f env.hasOO env.owner env.rem s.g s.processed = .ok (s'.g, n') →
      ∃ L dn cr, matchStepLogs env p i s = .ok L ∧ totalLogs L = [] ∧ s'.fills = s.fills ++ cr ∧ Emits s.g cr s'.g L dn := by
    intro f n' e hseq hp
    obtain ⟨L, dn, h1, ht, h2⟩ := emits_fill hh hseq hp
    refine ⟨.takerSignature s.g.market.seqNum :: L, dn, [f], ?_, ht, e, h2⟩
    unfold matchStepLogs
    rw [h, ok_bind]
    simp only
    rw [e, List.drop_left]
    simp only
    rw [h1, ok_bind]
    rfl
  obtain ⟨q, hq⟩ := hh
  cases matchStep_inv h with
  | done => exact quiet rfl (.refl hq)
  | drop g rb rq hs hd hp => exact quiet rfl (processOut_quiet ⟨q, hq⟩ hp)
  | ignore => exact quiet rfl (.refl hq)
  | stop => exact quiet rfl (.refl hq)
  | block => exact quiet rfl (.refl hq)
  | cancelOwn a a' hm hself hb ha hc =>
    exact quiet rfl (quiet_set ⟨q, hq⟩ ((Accts.get_ok).mp ha) (cancel_vols hc).1 (cancel_vols hc).2)
  | fillSelf g n hm hself hb hd hf => exact filled _ n rfl rfl hf.proc
  | fill g n rb hm hself hq' hrb hr hf => exact filled _ n rfl rfl hf.proc

theorem emits_loop {env : Env} {p : Int} {t : Nodes} {n : Nat} {it : SideIter} {s s' : MatchSt} (hh : ∃ q, HeapRep s.g.heap q)
    (h : matchLoop env p t n it s = .ok s') :
    ∃ L dn cr, matchLoopLogs env p t n it s = .ok L ∧ totalLogs L = [] ∧ s'.fills = s.fills ++ cr ∧ Emits s.g cr s'.g L dn := by
  induction n generalizing it s with
  | zero => cases h
  | succ n ih =>
    simp only [matchLoop, bind_ok] at h
    obtain ⟨r, hr, h⟩ := h
    unfold matchLoopLogs
    rw [hr, ok_bind]
    cases r with
    | none =>
      injection h with h; subst h
      obtain ⟨q, hq⟩ := hh
      exact ⟨[], [], [], rfl, rfl, by simp, .refl hq⟩
    | some x =>
      obtain ⟨item, it'⟩ := x
      simp only [bind_ok] at h
      obtain ⟨⟨go, s1⟩, h1, h⟩ := h
      obtain ⟨L1, d1, c1, k1, kt, k2, k3⟩ := emits_step hh h1
      simp only
      rw [h1, ok_bind, k1, ok_bind]
      cases go with
      | false =>
        simp only [Bool.false_eq_true, if_false] at h ⊢
        injection h with h; subst h
        exact ⟨L1, d1, c1, rfl, kt, k2, k3⟩
      | true =>
        simp only [if_true] at h ⊢
        obtain ⟨L2, d2, c2, m1, mt, m2, m3⟩ := ih k3.heap h
        rw [m1, ok_bind]
        exact ⟨L1 ++ L2, d1 ++ d2, c1 ++ c2, rfl, by rw [totalLogs_append, kt, mt]; rfl, by rw [m2, k2, List.append_assoc], k3.trans m3⟩


/-! ### a call of the matching engine -/

theorem bind_to {α β : Type} {x : OB.R α} {f : α → OB.R β} {v : α} {r : OB.R β} (hx : x = .ok v) (h : f v = r) : (x >>= f) = r := by
  rw [hx]; exact h

/-- The record of what was taken. -/
def totalOf (env : Env) (base quote fees : Int) : TotalLog :=
  match env.order.side with
  | .bid => { side := .bid, taker := env.owner, paid := quote + fees, received := base, fees }
  | .ask => { side := .ask, taker := env.owner, paid := base, received := quote - fees, fees }

theorem totalOf_side {env : Env} {base quote fees : Int} : (totalOf env base quote fees).side = env.order.side := by
  unfold totalOf; cases env.order.side <;> rfl
theorem totalOf_taker {env : Env} {base quote fees : Int} : (totalOf env base quote fees).taker = env.owner := by
  unfold totalOf; cases env.order.side <;> rfl
theorem totalOf_fees {env : Env} {base quote fees : Int} : (totalOf env base quote fees).fees = fees := by
  unfold totalOf; cases env.order.side <;> rfl
theorem totalOf_value {env : Env} {base quote fees : Int} : totalValue (totalOf env base quote fees) = quote := by
  unfold totalOf totalValue; cases env.order.side <;> simp

theorem totalOf_eta {env : Env} {base quote fees : Int} : (TotalLog.mk env.order.side env.owner (totalOf env base quote fees).paid
    (totalOf env base quote fees).received fees) = totalOf env base quote fees := by
  unfold totalOf; cases env.order.side <;> rfl

theorem total_emits {g g' : Ledger} {L : List Log} {k : Pubkey} {t : TotalLog} {hasOO : Bool} (hh : ∃ q, HeapRep g.heap q)
    (he : g'.heap = g.heap) (hL1 : fillLogs L = []) (hL2 : signatures L = []) (hL3 : totalLogs L = [t]) (ht : t.taker = k)
    (hr : SameRates g.market g'.market) (hm : g'.market.makerVolume = g.market.makerVolume)
    (hyes : hasOO = true → g'.market.takerVolumeWoOo = g.market.takerVolumeWoOo ∧ ∃ a a', g.accts.get? k = some a ∧
      g'.accts = g.accts.set k a' ∧ a'.position.makerVolume = a.position.makerVolume ∧
      a'.position.takerVolume = a.position.takerVolume + totalValue t ∧ ∃ l, positionLogs L = [l] ∧ positionLog k a'.position = .position l)
    (hno : hasOO = false → g'.market.takerVolumeWoOo = g.market.takerVolumeWoOo + totalValue t ∧ g.accts.get? k = none ∧ g'.accts = g.accts ∧
      positionLogs L = []) :
    Emits g [] g' L [] := by
  refine ⟨by rw [he]; exact hh, by rw [hL2]; rfl, by rw [hL1]; exact .nil, by unfold queuedFills; rw [he]; simp, hr, by simp [sumOf, hm], ?_, ?_,
    ?_, ?_, by simp, ?_⟩
  all_goals cases hasOO with
    | false => ?_
    | true => ?_
  · intro j; rw [(hno rfl).2.2.1]
  · obtain ⟨_, a, a', h1, h2, _⟩ := hyes rfl
    intro j; rw [h2]; exact set_keys h1 j
  · intro j b b' hb hb'
    rw [(hno rfl).2.2.1, hb] at hb'; injection hb' with hb'; subst hb'; simp [sumOf]
  · obtain ⟨_, a, a', h1, h2, h3, h4, h5⟩ := hyes rfl
    intro j b b' hb hb'
    rw [h2] at hb'
    rcases set_vols h1 hb hb' with ⟨_, rfl, rfl⟩ | ⟨_, rfl⟩
    · simp [sumOf, h3]
    · simp [sumOf]
  · intro j b b' hb hb'
    rw [(hno rfl).2.2.1, hb] at hb'; injection hb' with hb'; subst hb'
    have : k ≠ j := fun e => by rw [e, hb] at hno; exact nomatch (hno rfl).2.1
    rw [hL3, List.filter_cons, ht, if_neg (by simpa using this)]
    simp [sumOf]
  · obtain ⟨_, a, a', h1, h2, h3, h4, h5⟩ := hyes rfl
    intro j b b' hb hb'
    rw [h2] at hb'
    rw [hL3, List.filter_cons, ht]
    rcases set_vols h1 hb hb' with ⟨e, rfl, rfl⟩ | ⟨e, rfl⟩
    · rw [if_pos (by simpa using e.symm)]
      simp [sumOf, h4]
    · rw [if_neg (by simpa using Ne.symm e)]
      simp [sumOf]
  · rw [hL3, List.filter_cons, ht, (hno rfl).2.1, if_pos (by rfl), (hno rfl).1]
    simp [sumOf]
  · obtain ⟨h0, a, a', h1, h2, h3, h4, h5⟩ := hyes rfl
    rw [hL3, List.filter_cons, ht, h1, if_neg (by simp), h0]
    simp [sumOf]
  · intro j b b' hb hb'
    rw [(hno rfl).2.2.1, hb] at hb'; injection hb' with hb'; subst hb'
    exact (volumesRead_none (by rw [(hno rfl).2.2.2]; simp)).symm
  · obtain ⟨_, a, a', h1, h2, h3, h4, h5⟩ := hyes rfl
    intro j b b' hb hb'
    rw [h2] at hb'
    rcases set_vols h1 hb hb' with ⟨rfl, rfl, rfl⟩ | ⟨e, rfl⟩
    · exact (volumesRead_last h5).symm
    · refine (volumesRead_none ?_).symm
      obtain ⟨l, h6, h7⟩ := h5
      injection h7 with h7
      rw [h6, ← h7]
      simpa using Ne.symm e

theorem emits_taker {env : Env} {maxQ : Int} {s : MatchSt} {base quote fees ref qt : Int} {g' : Ledger} (hh : ∃ q, HeapRep s.g.heap q)
    (hno : env.hasOO = false → s.g.accts.get? env.owner = none)
    (h : takerAccounting env maxQ s = .ok (base, quote, fees, ref, qt, g')) :
    ∃ L, takerLogs env maxQ s = .ok L ∧ Emits s.g [] g' L [] ∧ qt = maxQ - s.remQuote ∧
      ((¬ (qt > 0 ∨ env.order.maxBaseLots - s.remBase > 0) ∧ L = []) ∨
       ((qt > 0 ∨ env.order.maxBaseLots - s.remBase > 0) ∧ totalLogs L = [totalOf env base quote fees] ∧
        ∃ l, L = l ++ [.total (totalOf env base quote fees)] ∧ (env.hasOO = false → l = []) ∧
        (env.hasOO = true → ∃ a, g'.accts.get? env.owner = some a ∧ l = [positionLog env.owner a.position]))) := by
  have hx := h
  unfold takerAccounting at hx
  simp only [assertR, bind_ok, ckI64_ok, req_ok] at hx
  obtain ⟨_, ⟨h1, rfl⟩, _, ⟨h2, rfl⟩, _, h3, _, h4, _, ⟨h5, rfl⟩, _, ⟨h6, rfl⟩, hx⟩ := hx
  unfold takerLogs
  rw [h, ok_bind]
  simp only
  rw [ckI64_eq h2.1 h2.2, ok_bind]
  split at hx
  · rename_i hc
    simp only [bind_ok, ckI64_ok, pure_ok] at hx
    obtain ⟨_, ⟨k1, rfl⟩, _, ⟨k2, rfl⟩, ⟨f, rf, m1⟩, k3, g, k4, x, k5, hx⟩ := hx
    simp only [Except.ok.injEq, Prod.mk.injEq] at hx
    obtain ⟨e1, e2, e3, e4, e5, e6⟩ := hx
    simp only at k4 k5
    subst e1 e2 e3 e4 e5 e6
    rw [if_pos hc]
    have hm1 : SameRates s.g.market m1 ∧ m1.makerVolume = s.g.market.makerVolume ∧ m1.takerVolumeWoOo = s.g.market.takerVolumeWoOo := by
      split at k3
      · simp only [bind_ok, pure_ok] at k3
        obtain ⟨_, _, _, _, _, _, e⟩ := k3
        simp only [Except.ok.injEq, Prod.mk.injEq] at e
        rw [← e.2.2]; exact ⟨⟨rfl, rfl, rfl⟩, rfl, rfl⟩
      · simp only [Except.ok.injEq, Prod.mk.injEq] at k3
        rw [← k3.2.2]; exact ⟨⟨rfl, rfl, rfl⟩, rfl, rfl⟩
    have hrec : (match env.order.side with
      | .bid => do return (← ckU64 (asU64 ((maxQ - s.remQuote) * s.g.market.quoteLotSize) + f), asU64 ((env.order.maxBaseLots - s.remBase) * s.g.market.baseLotSize))
      | .ask => do return (asU64 ((env.order.maxBaseLots - s.remBase) * s.g.market.baseLotSize), ← ckU64 (asU64 ((maxQ - s.remQuote) * s.g.market.quoteLotSize) - f)) : R (Int × Int)) =
        .ok ((totalOf env (asU64 ((env.order.maxBaseLots - s.remBase) * s.g.market.baseLotSize)) (asU64 ((maxQ - s.remQuote) * s.g.market.quoteLotSize)) f).paid,
          (totalOf env (asU64 ((env.order.maxBaseLots - s.remBase) * s.g.market.baseLotSize)) (asU64 ((maxQ - s.remQuote) * s.g.market.quoteLotSize)) f).received) := by
      unfold totalOf
      cases hs : env.order.side <;> rw [hs] at k5 <;> simp only [ckU64_ok] at k5 ⊢ <;> rw [ckU64_eq k5.1.1 k5.1.2] <;> rfl
    have htot := totalOf_eta (env := env) (base := asU64 ((env.order.maxBaseLots - s.remBase) * s.g.market.baseLotSize)) (quote := asU64 ((maxQ - s.remQuote) * s.g.market.quoteLotSize)) (fees := f)
    generalize hT : totalOf env (asU64 ((env.order.maxBaseLots - s.remBase) * s.g.market.baseLotSize)) (asU64 ((maxQ - s.remQuote) * s.g.market.quoteLotSize)) f = T at *
    have hval : totalValue T = asU64 ((maxQ - s.remQuote) * s.g.market.quoteLotSize) := by rw [← hT]; exact totalOf_value
    have htk : T.taker = env.owner := by rw [← hT]; exact totalOf_taker
    cases hoo : env.hasOO with
    | false =>
      rw [hoo] at k4
      simp only [Bool.false_eq_true, if_false, bind_ok, ckU128_ok, pure_ok] at k4
      simp only [Bool.false_eq_true, if_false, ok_bind]
      obtain ⟨_, ⟨_, rfl⟩, rfl⟩ := k4
      refine ⟨[.total T], bind_to hrec (by simp only [htot]; rfl), total_emits (t := T) (hasOO := false) hh rfl rfl rfl rfl htk ⟨hm1.1.lots, hm1.1.maker, hm1.1.taker⟩ hm1.2.1 (fun h => nomatch h)
        (fun _ => ⟨?_, hno hoo, rfl, rfl⟩), trivial, .inr ⟨hc, rfl, _, rfl, fun _ => rfl, (fun h => nomatch h)⟩⟩
      rw [hval, ← hm1.2.2]
    | true =>
      rw [hoo] at k4
      simp only [if_true, bind_ok, pure_ok, Accts.get_ok] at k4
      simp only [if_true]
      obtain ⟨a, ha, ⟨a', m2⟩, hex, rfl⟩ := k4
      have hT' := executeTaker_inv hex
      have hg : (s.g.accts.set env.owner a').get? env.owner = some a' := Accts.get?_set_self _ ha
      simp only [(Accts.get_ok).mpr hg, ok_bind]
      refine ⟨[positionLog env.owner a'.position, .total T], bind_to (v := [positionLog env.owner a'.position]) rfl (bind_to hrec (by simp only [htot]; rfl)), total_emits (t := T) (hasOO := true) hh rfl rfl rfl rfl htk ?_ ?_ (fun _ => ⟨?_, a, a', ha, rfl, ?_, ?_, _, rfl, rfl⟩)
        (fun h => nomatch h), trivial, .inr ⟨hc, rfl, [positionLog env.owner a'.position], rfl, (fun h => nomatch h), fun _ => ⟨a', hg, rfl⟩⟩⟩
      · rw [hT'.mkt]; exact ⟨hm1.1.lots, hm1.1.maker, hm1.1.taker⟩
      · rw [hT'.mkt]; exact hm1.2.1
      · rw [hT'.mkt]; exact hm1.2.2
      · rw [hT'.res]; cases env.order.side <;> rfl
      · rw [hT'.res, hval]; cases env.order.side <;> rfl
  · rename_i hc
    injection hx with hx
    simp only [Prod.mk.injEq] at hx
    obtain ⟨e1, e2, e3, e4, e5, e6⟩ := hx
    subst e6 e5
    rw [if_neg hc]
    obtain ⟨q, hq⟩ := hh
    exact ⟨[], rfl, .refl hq, rfl, .inl ⟨hc, rfl⟩⟩

theorem makeRoom_quiet {env : Env} {p : Int} {c : Comp} {b b' : BookSide} {g g' : Ledger} {outs : List OutEvent} (hh : ∃ q, HeapRep g.heap q)
    (h : makeRoom env p c b g = .ok (b', g', outs)) : Quiet g g' := by
  unfold makeRoom at h
  have key : ∀ g1 b1 o1, Quiet g g1 → (if b1.isFull = true then do
      let (l, worstPrice, b2) ← unwrapR (← b1.removeWorst env.nowTs env.oracle)
      req (env.order.side.isPriceBetter p worstPrice = true) .someError
      let ev : OutEvent := { side := env.order.side, ownerSlot := l.ownerSlot, timestamp := env.nowTs, seqNum := g1.heap.seqNum, owner := l.owner, quantity := l.quantity }
      let g2 ← processOutEvent ev true env.owner env.rem g1
      return (b2, g2, o1 ++ [ev])
    else return (b1, g1, o1) : R (BookSide × Ledger × List OutEvent)) = .ok (b', g', outs) → Quiet g g' := by
    intro g1 b1 o1 q1 h
    split at h
    · simp only [bind_ok, pure_ok] at h
      obtain ⟨_, _, x, _, _, _, g2, h2, h⟩ := h
      cases h
      exact q1.trans (processOut_quiet q1.heap h2)
    · cases h; exact q1
  simp only [bind_ok] at h
  obtain ⟨x, hx, h⟩ := h
  cases x with
  | none =>
    obtain ⟨q, hq⟩ := hh
    obtain ⟨y, hy, h⟩ := h
    cases hy
    exact key g b [] (.refl hq) h
  | some x =>
    simp only [bind_ok, pure_ok] at h
    obtain ⟨y, ⟨g2, h2, hy⟩, h⟩ := h
    cases hy
    exact key g2 _ _ (processOut_quiet hh h2) h

theorem postOrder_quiet {env : Env} {id : Nat} {pl p qty : Int} {c : Comp} {b b' : BookSide} {g g' : Ledger} {x y z : Int} {outs : List OutEvent}
    (hh : ∃ q, HeapRep g.heap q) (h : postOrder env id pl p qty c b g = .ok (b', g', x, y, z, outs)) : Quiet g g' := by
  unfold postOrder at h
  simp only [assertR, bind_ok, ckI64_ok, req_ok, pure_ok, Accts.get_ok] at h
  obtain ⟨_, _, _, _, _, _, _, _, _, _, a, ha, ⟨mf, a1⟩, h1, ⟨b1, g2, o⟩, h2, a2, ha2, slot, _, ⟨_, _, b2⟩, _, a3, h3, h⟩ := h
  cases h
  have hv : a1.position.makerVolume = a.position.makerVolume ∧ a1.position.takerVolume = a.position.takerVolume := by
    cases hs : env.order.side with
    | bid =>
      rw [hs] at h1
      simp only [bind_ok, ckU64_ok, pure_ok] at h1
      obtain ⟨_, _, _, _, _, _, h1⟩ := h1
      simp only [Except.ok.injEq, Prod.mk.injEq] at h1
      rw [← h1.2]; exact ⟨rfl, rfl⟩
    | ask => rw [hs] at h1; cases h1; exact ⟨rfl, rfl⟩
  have q1 : Quiet g { g with accts := g.accts.set env.owner a1 } := quiet_set hh ha hv.1 hv.2
  have q2 := q1.trans (makeRoom_quiet q1.heap h2)
  have hadd := (addOrder_inv h3).res
  have hv3 : a3.position.makerVolume = a2.position.makerVolume ∧ a3.position.takerVolume = a2.position.takerVolume := by
    rw [hadd]; cases env.order.side <;> exact ⟨rfl, rfl⟩
  exact q2.trans (quiet_set q2.heap ha2 hv3.1 hv3.2)

/-- Where the matching loop starts. -/
def startSt (env : Env) (g : Ledger) (maxQ : Int) : MatchSt :=
  { remBase := env.order.maxBaseLots, remQuote := maxQ, decr := 0, rebates := 0, changes := [], deletes := [],
    dropped := 0, processed := 0, limit := env.limit, postTarget := env.order.postTarget,
    g := { g with market := { g.market with seqNum := g.market.seqNum + 1 } }, fills := [], outs := [] }

/-- A call of the matching engine. -/
theorem emits_order {env : Env} {book book' : Book} {g g' : Ledger} {r : OrderResult} (hh : ∃ q, HeapRep g.heap q)
    (hno : env.hasOO = false → g.accts.get? env.owner = none) (C : NewOrderRun env book g r book' g') :
    ∃ L dn, newOrderLogs env book g = .ok L ∧ Emits g r.fills g' L dn ∧
      totalLogs L = if C.quoteTaken > 0 ∨ env.order.maxBaseLots - C.s.remBase > 0
        then [totalOf env r.totalBaseTakenNative r.totalQuoteTakenNative r.takerFees] else [] := by
  have q0 : Quiet g { g with market := { g.market with seqNum := g.market.seqNum + 1 } } :=
    quiet_of hh rfl ⟨rfl, rfl, rfl⟩ rfl rfl (fun _ => rfl) (fun k a a' h1 h2 => by rw [h1] at h2; injection h2 with h2; subst h2; exact ⟨rfl, rfl⟩)
  obtain ⟨s0, hs0⟩ : ∃ s0 : MatchSt, startSt env g C.maxQ = s0 := ⟨_, rfl⟩
  have hg0 : s0.g = { g with market := { g.market with seqNum := g.market.seqNum + 1 } } := by rw [← hs0]; rfl
  have hf0 : s0.fills = [] := by rw [← hs0]; rfl
  have hl : matchLoop env C.priceLots (book.side env.order.side.invert).nodes (2 * Nodes.fuel) C.it (startSt env g C.maxQ) = .ok C.s := C.loop
  rw [hs0] at hl
  obtain ⟨L1, d1, cr, k1, ht0, k2, k3⟩ := emits_loop (by rw [hg0]; exact q0.heap) hl
  rw [hg0] at k3
  rw [hf0, List.nil_append] at k2
  have hno' : env.hasOO = false → C.s.g.accts.get? env.owner = none := fun h => by
    have := k3.keys env.owner
    have h0 : g.accts.get? env.owner = none := hno h
    simp only [h0] at this
    simpa using this
  obtain ⟨L2, m1, m2, _, m3⟩ := emits_taker k3.heap hno' C.taker
  have hp : Quiet C.g1 g' := by
    rcases C.post with ⟨_, _, _, _, _, _, _, e⟩ | ⟨c, own, outs, _, _, hp, _⟩
    · obtain ⟨q, hq⟩ := m2.heap; exact (congrArg (Quiet C.g1) e).mpr (.refl hq)
    · exact postOrder_quiet m2.heap hp
  refine ⟨L1 ++ L2, d1, ?_, ?_, ?_⟩
  · unfold newOrderLogs
    have hp : env.order.price env.nowTs env.oracle book = .ok (C.priceLots, C.priceData) := by
      unfold Order.price
      rw [C.price, ok_bind, req_true C.pricePos, ok_bind, C.data]; rfl
    have hmq := C.maxQEq
    simp only [hp, ok_bind, assertR, req_true C.seq]
    have key : (do
        let it ← (book.side env.order.side.invert).iter
        let s ← matchLoop env C.priceLots (book.side env.order.side.invert).nodes (2 * Nodes.fuel) it (startSt env g C.maxQ)
        let l ← matchLoopLogs env C.priceLots (book.side env.order.side.invert).nodes (2 * Nodes.fuel) it (startSt env g C.maxQ)
        return l ++ (← takerLogs env C.maxQ s) : R (List Log)) = .ok (L1 ++ L2) := by
      rw [C.iter, ok_bind, hs0, hl, ok_bind, k1, ok_bind, m1]; rfl
    by_cases hc : env.order.side = .bid ∧ env.order.isPostOnly = false
    · rw [if_pos hc] at hmq ⊢
      refine bind_to (v := C.maxQ) ?_ key
      rw [← hmq]; rfl
    · rw [if_neg hc] at hmq ⊢
      injection hmq with hmq
      rw [hmq]; exact key
  · have := (q0.trans (k3.trans (m2.trans hp)))
    simpa [C.fills, k2] using this
  · rw [totalLogs_append, ht0, List.nil_append]
    rcases m3 with ⟨h1, h2⟩ | ⟨h1, h2, _⟩
    · rw [if_neg h1, h2]; rfl
    · rw [if_pos h1, h2]

end OB
