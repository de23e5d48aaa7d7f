import Verif.Proofs.Room
import Verif.Props.Scenario
/-!
C37 — A full book only displaces a worse order.
-/
namespace OB
open Spec

/-- Whenever a call of the matching engine posts an order: the own side afterwards is the own side before, without at most one
expired order and, if the side is full, without the worst order, plus the new order.  An order is evicted only from a full side, and
only by a strictly better price.  Every removed order is reported with exactly its remaining quantity. -/
theorem C37_displaces {env : Env} {book book' : Book} {g g' : Ledger} {r : OrderResult} (h : EngineCall env book g r book' g')
    {id : Nat} (hid : r.orderId = some id) :
    ∃ E W kept c new p, MadeRoom env book r book' g' E W kept c new p := by
  obtain ⟨C⟩ := callRun h
  obtain ⟨c, hc, rfl⟩ := C.target_some hid
  obtain ⟨own, e1, outs, e2, hP⟩ := C.ownOf hc
  obtain ⟨c', l, hc', hpt, hml, hlk, _, _, _, _, _, _, hpr⟩ := C.posted hid
  rw [hc] at hc'; cases hc'
  obtain ⟨rm, b1, slot, hM, ho, h1, h2⟩ := hP.room
  obtain ⟨E, W, b2, rfl, hE1, hW1, hE2, hE3, hperm, ⟨ot2, hb2⟩, hW2, hW3⟩ := hM.split
  obtain ⟨Q, hQ1, hQ2, hQ3, hQ4⟩ := hP.heap
  have hnow := h.valid.clock
  have hside : ∀ b : Book, onSide b env.order.side = sideRests env.order.side (b.side env.order.side).orders := fun b => resting_side b _
  have hrank : ∀ x ∈ onSide book env.order.side, rankPrice env.oracle x.2.1 x.2.2 = evictPrice env.oracle x.2.1 x.2.2 := by
    rintro ⟨s, c, l⟩ hm
    obtain ⟨oo, hr, _⟩ := resting_ok C.core (List.mem_filter.mp hm).1
    exact rankPrice_evict hr
  have hWk : (tagged env.order.side W ++ sideRests env.order.side b1).Perm (sideRests env.order.side b2.orders) := by
    have := h1.symm.trans hperm
    unfold tagged at this ⊢
    rw [List.map_append, List.append_assoc] at this
    exact (List.perm_append_left_iff _).mp this
  have hsub : ∀ x ∈ sideRests env.order.side b2.orders, x ∈ onSide book env.order.side := by
    intro x hx
    rw [hside]; exact hperm.mem_iff.mpr (List.mem_append_right _ hx)
  refine ⟨tagged env.order.side E, tagged env.order.side W, sideRests env.order.side b1, c,
    newLeaf env (newNodeKey env.order.side C.R.priceData (g.market.seqNum + 1)) C.R.qty slot, C.R.priceLots, ?_⟩
  refine ⟨hid, ?_, ?_, ?_, ?_, ?_, ?_, ?_⟩
  · unfold priceOf at hpr ⊢
    rw [hlk] at hpr
    exact hpr
  · rw [hside]; unfold tagged at h1 ⊢; rw [← List.map_append]; exact h1
  · rw [hside, e1]; exact h2
  · refine ⟨by unfold tagged; simpa using hE1, ?_, ?_⟩
    · intro x hx
      obtain ⟨y, hy, rfl⟩ := List.mem_map.mp hx
      exact expiry_lt (hE2 y hy).2 hnow
    · intro he x hx hex
      have he' : E = [] := by simpa [tagged] using he
      rw [hside] at hx
      obtain ⟨s, c, l⟩ := x
      exact (hE3 he').2 c l (mem_sideRests.mp hx).2 (lt_expiry hex)
  · intro hw
    have hw' : W = [] := by simpa [tagged] using hw
    have hn := hW2 hw'
    refine ⟨?_, ?_⟩
    · have := hWk.length_eq
      have h3 := notFull_few (s := env.order.side) hb2 hn
      rw [hw, List.nil_append] at this
      omega
    · intro he
      have he' : E = [] := by simpa [tagged] using he
      rw [← (hE3 he').1]; exact hn
  · intro hw
    cases W with
    | nil => exact absurd rfl hw
    | cons w W' =>
      have : W' = [] := by cases W' with
        | nil => rfl
        | cons _ _ => simp at hW1
      subst this
      obtain ⟨hf, q, hq, hb⟩ := hW3 w (by simp)
      have hm : (env.order.side, w.1, w.2) ∈ sideRests env.order.side b2.orders := mem_sideRests.mpr ⟨rfl, hq.mem⟩
      refine ⟨(env.order.side, w.1, w.2), q, rfl, ?_, ?_, ?_, isBetter_iff.mp hb, ?_⟩
      · rw [hWk.length_eq]; exact full_many hb2 hf
      · have := hrank _ (hsub _ hm)
        simp only at this ⊢
        rw [← this]; exact hq.price
      · rintro ⟨s, c', l'⟩ hx q' hq' hbt
        have hx2 := hWk.mem_iff.mp (List.mem_append_right _ hx)
        have hr := hrank _ (hsub _ hx2)
        simp only at hr hq'
        rw [← hr] at hq'
        have := hq.worst c' l' q' (mem_sideRests.mp hx2).2 hq'
        rw [isBetter_iff.mpr hbt] at this; cases this
      · intro he
        have he' : E = [] := by simpa [tagged] using he
        rw [← (hE3 he').1]; exact hf
  · intro x hx
    unfold tagged at hx; rw [← List.map_append] at hx
    obtain ⟨y, hy, rfl⟩ := List.mem_map.mp hx
    have hy3 : y.2.out3 ∈ outs.map OutEvent.out3 := by rw [ho]; exact List.mem_map.mpr ⟨y, hy, rfl⟩
    obtain ⟨o, hom, hoe⟩ := List.mem_map.mp hy3
    unfold OutEvent.out3 LeafNode.out3 at hoe
    injection hoe with k1 hoe
    injection hoe with k2 k3
    refine ⟨o, by rw [e2]; exact List.mem_append_right _ hom, ⟨hP.outsSide o hom, k1, k2, k3⟩, ?_⟩
    rw [hQ1]
    rcases hQ4 o hom with hx | hx | hx
    · exact .inl (List.mem_append_right _ hx)
    · right; left; rw [hx, k1]
    · right; right; rw [← k1]; exact hx

/-- A side is full from 512 resting orders on (whether 512 are enough depends on how the tree nodes are used). -/
theorem C37_full_count {s : State} (h : Reachable s) (side : Side) :
    ((s.book.side side).isFull = true → 512 ≤ (onSide s.book side).length) ∧
    ((s.book.side side).isFull = false → (onSide s.book side).length ≤ 512) ∧ (onSide s.book side).length ≤ 513 := by
  obtain ⟨ot, ho⟩ := (reachable_Inv h).core.bookOk.ok side
  unfold onSide
  rw [resting_side]
  exact ⟨full_many ho, notFull_few ho, side_le ho⟩

/-- On a full side without expired orders an order is posted only at a price strictly better than that of the worst order, which it
evicts. -/
theorem C37_full_evicts {env : Env} {book book' : Book} {g g' : Ledger} {r : OrderResult} (h : EngineCall env book g r book' g')
    (full : (book.side env.order.side).isFull = true) (live : ∀ x ∈ onSide book env.order.side, ¬ expiredBefore env.nowTs x.2.2)
    {id : Nat} (hid : r.orderId = some id) :
    ∃ w kept c new p q, new.key = id ∧ priceOf env.oracle c new = some p ∧
      (onSide book env.order.side).Perm (w :: kept) ∧ (onSide book' env.order.side).Perm ((env.order.side, c, new) :: kept) ∧
      evictPrice env.oracle w.2.1 w.2.2 = some q ∧
      (∀ x ∈ kept, ∀ q', evictPrice env.oracle x.2.1 x.2.2 = some q' → ¬ betterPrice env.order.side q q') ∧
      betterPrice env.order.side p q ∧ Evicted env r g' w := by
  obtain ⟨E, W, kept, c, new, p, M⟩ := C37_displaces h hid
  have hE : E = [] := by
    cases E with
    | nil => rfl
    | cons x E' =>
      have hx := M.expired.2.1 x (by simp)
      exact absurd hx (live x (M.before.mem_iff.mpr (by simp)))
  subst hE
  have hW : W ≠ [] := by
    intro hw
    have := (M.room hw).2 rfl
    rw [full] at this; cases this
  obtain ⟨w, q, rfl, _, h1, h2, h3, _⟩ := M.evict hW
  have hk := M.id
  rw [hid] at hk
  injection hk with hk
  exact ⟨w, kept, c, new, p, q, hk.symm, M.price, M.before, M.after, h1, h2, h3, M.events w (by simp)⟩

/-- On a full side without expired orders, an order whose price is not strictly better than that of any resting order cannot be
posted: a successful call never leaves an order at such a price. -/
theorem C37_no_better_fails {env : Env} {book book' : Book} {g g' : Ledger} {r : OrderResult}
    (full : (book.side env.order.side).isFull = true) (live : ∀ x ∈ onSide book env.order.side, ¬ expiredBefore env.nowTs x.2.2)
    {p : Int} (worse : ∀ x ∈ onSide book env.order.side, ∀ q, evictPrice env.oracle x.2.1 x.2.2 = some q →
      ¬ betterPrice env.order.side p q)
    {c : Comp} {l : LeafNode} : ¬ (EngineCall env book g r book' g' ∧ PostedAt env book r book' c l p) := by
  rintro ⟨h, hp⟩
  obtain ⟨w, kept, c', new, p', q, hk, hpr, hb, ha, hq, _, hbt, _⟩ := C37_full_evicts h full live hp.id
  have hm : (env.order.side, c, l) ∈ onSide book' env.order.side := by
    unfold onSide; rw [List.mem_filter]; exact ⟨hp.mem, by simp⟩
  have : p' = p := by
    rcases List.mem_cons.mp (ha.mem_iff.mp hm) with he | he
    · injection he with _ he
      injection he with he1 he2
      subst he1; subst he2
      have := hp.price
      rw [hpr] at this
      injection this
    · have hbk := hb.mem_iff.mpr (List.mem_cons_of_mem _ he)
      exact absurd rfl (hp.new c l (List.mem_filter.mp hbk).1)
  subst this
  exact worse w (hb.mem_iff.mpr (by simp)) q hq hbt

/-- A call that posts an order (the case of a full side is in C37_FullCase). -/
example : ∃ env book g r book' g' id, EngineCall env book g r book' g' ∧ r.orderId = some id := by
  obtain ⟨s, r, book', g', h, hp⟩ := Scenario.call_spec (a := Scenario.args) (ops := Scenario.ops1)
    (env := Scenario.taker 1 .bid (.fixed 980 .limit) 1 100000) (p := fun _ r _ _ => r.orderId.isSome) (by decide +kernel)
  obtain ⟨id, hid⟩ := Option.isSome_iff_exists.mp hp
  exact ⟨_, _, _, _, _, _, id, h, hid⟩

end OB
