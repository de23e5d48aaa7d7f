import Verif.Proofs.Match
/-! The opposing side of the book after a call of the matching engine, order by order. -/
namespace OB
open Spec

theorem items_ref {env : Env} {ot : Comp → Option T} {i : IterItem} (hi : i ∈ callItems env ot) : i.ref ∈ oppL ot i.comp := by
  rcases (items_ok _ _ i hi).2 with ⟨hc, hm⟩ | ⟨hc, hm⟩ <;> rw [hc] <;> exact mem_ord.mp hm

theorem oppL_handle {b : BookSide} {ot : Comp → Option T} (h : BSOk b ot) {c c' : Comp} {x y : Nat × LeafNode} (hx : x ∈ oppL ot c)
    (hy : y ∈ oppL ot c') (he : x.1 = y.1) : c = c' ∧ x = y := by
  by_cases hc : c = c'
  · subst hc
    exact ⟨rfl, nodup_map_inj (h.entries.handlesC c) hx hy he⟩
  · exfalso
    have := h.entries.disjoint hc (x := x.1) (List.mem_map_of_mem hx)
    rw [he] at this
    exact this (List.mem_map_of_mem hy)

theorem oppL_key {b : BookSide} {ot : Comp → Option T} (h : BSOk b ot) {c : Comp} {x y : Nat × LeafNode} (hx : x ∈ oppL ot c)
    (hy : y ∈ oppL ot c) (he : x.2.key = y.2.key) : x = y := nodup_map_inj (h.entries.keys c) hx hy he

theorem items_handle_nodup {env : Env} {b : BookSide} {ot : Comp → Option T} (ho : BSOk b ot) :
    ((callItems env ot).map (·.handle)).Nodup := by
  refine items_handles _ _ ?_
  refine List.Perm.nodup ?_ ho.handles
  exact ((OT.ord_perm _ _).map _).symm.append ((OT.ord_perm _ _).map _).symm

theorem nodup_filterMap {α β γ : Type} {f : α → Option β} {g : α → γ} {k : β → γ} {L : List α} (h : (L.map g).Nodup)
    (hf : ∀ a b, f a = some b → k b = g a) : ((L.filterMap f).map k).Nodup := by
  induction L with
  | nil => simp
  | cons a L ih =>
    rw [List.map_cons, List.nodup_cons] at h
    cases hfa : f a with
    | none => rw [List.filterMap_cons_none hfa]; exact ih h.2
    | some b =>
      rw [List.filterMap_cons_some hfa, List.map_cons, List.nodup_cons]
      refine ⟨?_, ih h.2⟩
      intro hm
      obtain ⟨b', hb', he⟩ := List.mem_map.mp hm
      obtain ⟨a', ha', hb''⟩ := List.mem_filterMap.mp hb'
      apply h.1
      rw [← hf a b hfa, ← he, hf a' b' hb'']
      exact List.mem_map_of_mem ha'

section
variable {env : Env} {book : Book} {g : Ledger} {dB dQ : Int} {ot : Comp → Option T} {price : Int} {m : Market} {s : MatchSt} {tr : List Visit}
  {todo : List IterItem}

theorem LoopTrace.mem (T : LoopTrace env price m (callItems env ot) s tr todo) {v : Visit} (hv : v ∈ tr) :
    v.item ∈ callItems env ot := by
  rw [← T.split]; exact List.mem_append_left _ (List.mem_map_of_mem hv)

theorem LoopTrace.handles (T : LoopTrace env price m (callItems env ot) s tr todo) {b : BookSide} (ho : BSOk b ot) :
    (tr.map (fun v => v.item.handle)).Nodup := by
  have h := items_handle_nodup (env := env) ho
  rw [← T.split, List.map_append, List.map_map] at h
  exact (List.nodup_append.mp h).1

theorem LoopTrace.inj (T : LoopTrace env price m (callItems env ot) s tr todo) {b : BookSide} (ho : BSOk b ot) {v w : Visit}
    (hv : v ∈ tr) (hw : w ∈ tr) (hc : v.item.comp = w.item.comp) (hl : v.item.leaf.key = w.item.leaf.key) : v = w := by
  have h1 := items_ref (T.mem hv)
  have h2 := items_ref (T.mem hw)
  rw [← hc] at h2
  have := oppL_key ho h1 h2 hl
  exact nodup_map_inj (T.handles ho) hv hw (congrArg Prod.fst this)

/-- An order was visited. -/
def Visited (tr : List Visit) (c : Comp) (l : LeafNode) (v : Visit) : Prop := v ∈ tr ∧ v.item.comp = c ∧ v.item.leaf = l

theorem change_iff {v : Visit} {x : Nat × Int} : v.change? = some x ↔
    ∃ q sf, v.fate = .fill q sf ∧ v.item.leaf.quantity ≠ q ∧ x = (v.item.handle, v.item.leaf.quantity - q) := by
  unfold Visit.change?
  cases hf : v.fate with
  | fill q sf =>
    simp only
    split
    · rename_i h; simp; omega
    · rename_i h
      simp only [Option.some.injEq]
      constructor
      · intro hx; exact ⟨q, sf, rfl, by omega, hx.symm⟩
      · rintro ⟨q', sf', h1, _, h3⟩; injection h1 with h1 h1'; subst h1; exact h3.symm
  | cancel => simp
  | drop => simp
  | ignore => simp

/-- The visit removed the order. -/
def Visit.removes (v : Visit) : Prop := v.fate = .cancel ∨ v.fate = .drop ∨ ∃ sf, v.fate = .fill v.item.leaf.quantity sf

theorem delete_iff {v : Visit} {x : Comp × Nat} : v.delete? = some x ↔ v.removes ∧ x = (v.item.comp, v.item.leaf.key) := by
  unfold Visit.delete? Visit.removes
  cases hf : v.fate with
  | fill q sf =>
    simp only
    split
    · rename_i h
      have : q = v.item.leaf.quantity := by omega
      subst this
      simp [eq_comm (a := x)]
    · rename_i h
      have : q ≠ v.item.leaf.quantity := by omega
      simp [this]
  | cancel => simp [eq_comm (a := x)]
  | drop => simp [eq_comm (a := x)]
  | ignore => simp

theorem LoopTrace.changed (T : LoopTrace env price m (callItems env ot) s tr todo) {b : BookSide} (ho : BSOk b ot) {c : Comp}
    {x : Nat × LeafNode} (hx : x ∈ oppL ot c) {q : Int} (hq : (x.1, q) ∈ s.changes) :
    ∃ v, Visited tr c x.2 v ∧ ∃ q' sf, v.fate = .fill q' sf ∧ q' ≠ x.2.quantity ∧ q = x.2.quantity - q' := by
  rw [T.changes] at hq
  obtain ⟨v, hv, hc⟩ := List.mem_filterMap.mp hq
  obtain ⟨q', sf, h1, h2, h3⟩ := change_iff.mp hc
  injection h3 with h3 h4
  have hr := items_ref (T.mem hv)
  obtain ⟨e1, e2⟩ := oppL_handle ho hr hx h3.symm
  have e3 : v.item.leaf = x.2 := congrArg Prod.snd e2
  exact ⟨v, ⟨hv, e1, e3⟩, q', sf, h1, by rw [← e3]; exact fun h => h2 h.symm, by rw [← e3]; exact h4⟩

theorem LoopTrace.change_mem (T : LoopTrace env price m (callItems env ot) s tr todo) {b : BookSide} (ho : BSOk b ot) {c : Comp}
    {x : Nat × LeafNode} (hx : x ∈ oppL ot c) {v : Visit} (hv : Visited tr c x.2 v) {q : Int} {sf : Bool} (hf : v.fate = .fill q sf)
    (hq : q ≠ x.2.quantity) : (x.1, x.2.quantity - q) ∈ s.changes := by
  rw [T.changes]
  refine List.mem_filterMap.mpr ⟨v, hv.1, change_iff.mpr ⟨q, sf, hf, ?_, ?_⟩⟩
  · rw [hv.2.2]; exact fun h => hq h.symm
  · have hr := items_ref (T.mem hv.1)
    rw [hv.2.1] at hr
    have := oppL_key ho hr hx (by show v.item.leaf.key = _; rw [hv.2.2])
    rw [← this]; rfl

theorem LoopTrace.deleted (T : LoopTrace env price m (callItems env ot) s tr todo) {b : BookSide} (ho : BSOk b ot) {c : Comp}
    {x : Nat × LeafNode} (hx : x ∈ oppL ot c) : (c, x.2.key) ∈ s.deletes ↔ ∃ v, Visited tr c x.2 v ∧ v.removes := by
  rw [T.deletes]
  constructor
  · intro h
    obtain ⟨v, hv, hd⟩ := List.mem_filterMap.mp h
    obtain ⟨h1, h2⟩ := delete_iff.mp hd
    injection h2 with h2 h3
    have hr := items_ref (T.mem hv)
    rw [← h2] at hr
    have := oppL_key ho hx hr h3
    exact ⟨v, ⟨hv, h2.symm, (congrArg Prod.snd this).symm⟩, h1⟩
  · rintro ⟨v, ⟨hv, h1, h2⟩, hr⟩
    exact List.mem_filterMap.mpr ⟨v, hv, delete_iff.mpr ⟨hr, by rw [h1, h2]⟩⟩

/-- The opposing side after the call: every order there was there before and is untouched, or was partly filled. -/
theorem LoopTrace.after (T : LoopTrace env price m (callItems env ot) s tr todo) {b : BookSide} (ho : BSOk b ot) {c : Comp}
    {l' : LeafNode} (hl : l' ∈ virt (oppL ot) s.changes s.deletes c) :
    ∃ l ∈ b.orders c, (l' = l ∧ ∀ v, Visited tr c l v → v.fate = .ignore) ∨
      ∃ v, Visited tr c l v ∧ ∃ q sf, v.fate = .fill q sf ∧ q ≠ l.quantity ∧ l' = l.withQty (l.quantity - q) := by
  unfold virt at hl
  obtain ⟨h1, h2⟩ := List.mem_filter.mp hl
  obtain ⟨x', hx', rfl⟩ := List.mem_map.mp h1
  have hC : (s.changes.map (·.1)).Nodup := by
    rw [T.changes]
    refine nodup_filterMap (g := fun v => v.item.handle) (T.handles ho) ?_
    intro v x hx
    obtain ⟨q, sf, _, _, rfl⟩ := change_iff.mp hx
    rfl
  have hn : (c, x'.2.key) ∉ s.deletes := by simpa [notIn] using h2
  rcases setQs_cases hC hx' with ⟨hm, hnc⟩ | ⟨q, l, hq, hm, he⟩
  · refine ⟨x'.2, (mem_oppL ho).mpr ⟨_, hm, rfl⟩, .inl ⟨rfl, ?_⟩⟩
    intro v hv
    have hnr : ¬ v.removes := fun hr => hn ((T.deleted ho hm).mpr ⟨v, hv, hr⟩)
    cases hf : v.fate with
    | fill q sf =>
      exfalso
      by_cases hq : q = x'.2.quantity
      · exact hnr (.inr (.inr ⟨sf, by rw [hv.2.2, ← hq]; exact hf⟩))
      · exact hnc (List.mem_map.mpr ⟨_, T.change_mem ho hm hv hf hq, rfl⟩)
    | cancel => exact absurd (.inl hf) hnr
    | drop => exact absurd (.inr (.inl hf)) hnr
    | ignore => rfl
  · refine ⟨l, (mem_oppL ho).mpr ⟨_, hm, rfl⟩, .inr ?_⟩
    obtain ⟨v, hv, q', sf, h3, h4, h5⟩ := T.changed ho hm hq
    exact ⟨v, hv, q', sf, h3, h4, by rw [he, h5]⟩

/-- An order which the call did not remove is still there. -/
theorem LoopTrace.stays (T : LoopTrace env price m (callItems env ot) s tr todo) {b : BookSide} (ho : BSOk b ot) {c : Comp}
    {l : LeafNode} (hl : l ∈ b.orders c) (hr : ∀ v, Visited tr c l v → ¬ v.removes) :
    ∃ l' ∈ virt (oppL ot) s.changes s.deletes c, (l' = l ∧ ∀ v, Visited tr c l v → v.fate = .ignore) ∨
      ∃ v, Visited tr c l v ∧ ∃ q sf, v.fate = .fill q sf ∧ q ≠ l.quantity ∧ l' = l.withQty (l.quantity - q) := by
  obtain ⟨x, hx, rfl⟩ := (mem_oppL ho).mp hl
  obtain ⟨x', hx', h1, h2⟩ := setQs_some (C := s.changes) hx
  have hm : x'.2 ∈ virt (oppL ot) s.changes s.deletes c := by
    unfold virt
    refine List.mem_filter.mpr ⟨List.mem_map_of_mem hx', ?_⟩
    simp only [notIn, decide_eq_true_eq]
    rw [h2]
    intro hd
    obtain ⟨v, hv, hvr⟩ := (T.deleted ho hx).mp hd
    exact hr v hv hvr
  refine ⟨x'.2, hm, ?_⟩
  obtain ⟨l, hl', hcase⟩ := T.after ho hm
  obtain ⟨y, hy, rfl⟩ := (mem_oppL ho).mp hl'
  have hk : x'.2.key = y.2.key := by
    rcases hcase with ⟨e, _⟩ | ⟨_, _, _, _, _, _, e⟩ <;> rw [e]; rfl
  have := oppL_key ho hx hy (h2.symm.trans hk)
  rw [← this] at hcase
  exact hcase

/-- A removed order is gone. -/
theorem LoopTrace.gone (T : LoopTrace env price m (callItems env ot) s tr todo) {b : BookSide} (ho : BSOk b ot) {c : Comp}
    {l : LeafNode} {v : Visit} (hv : Visited tr c l v) (hr : v.removes) {l' : LeafNode}
    (hl' : l' ∈ virt (oppL ot) s.changes s.deletes c) : l'.key ≠ l.key := by
  intro hk
  have hx := items_ref (T.mem hv.1)
  rw [hv.2.1] at hx
  have : (c, v.item.ref.2.key) ∈ s.deletes := (T.deleted ho hx).mpr ⟨v, ⟨hv.1, hv.2.1, rfl⟩, hr⟩
  unfold virt at hl'
  have h2 := (List.mem_filter.mp hl').2
  simp only [notIn, decide_eq_true_eq] at h2
  apply h2
  rw [hk, ← hv.2.2]
  exact this

/-! ### fills -/

theorem fill_some {seq : Nat} {v : Visit} {f : FillEvent} : v.fill? env seq = some f ↔
    ∃ q sf, v.fate = .fill q sf ∧ f = mkFill env seq v.item (decide (v.item.leaf.quantity - q = 0)) q := by
  unfold Visit.fill?
  cases hf : v.fate with
  | fill q sf =>
    simp only [Option.some.injEq]
    constructor
    · intro h; exact ⟨q, sf, rfl, h.symm⟩
    · rintro ⟨q', sf', h1, h2⟩; injection h1 with h1 h1'; subst h1; exact h2.symm
  | cancel => simp
  | drop => simp
  | ignore => simp

theorem isFillOf (hc : Core g book dB dQ) (ho : BSOk (book.side env.order.side.invert) ot)
    (T : LoopTrace env price m (callItems env ot) s tr todo) {v : Visit} (hv : v ∈ tr) {f : FillEvent} {seq : Nat}
    (hf : v.fill? env seq = some f) : IsFillOf env book v.item.comp v.item.leaf f := by
  obtain ⟨q, sf, h1, rfl⟩ := fill_some.mp hf
  have hsp := item_spec hc ho (T.mem hv)
  obtain ⟨hval, _, _, _, hq1, _, hq2, _⟩ := (T.ok v hv).fill q sf h1
  refine ⟨hsp.mem, hsp.valid hval, ⟨hq1, hq2⟩, ?_, ⟨rfl, rfl, rfl, rfl, rfl⟩, ⟨rfl, rfl, rfl, rfl⟩⟩
  simp only [mkFill, decide_eq_true_eq]
  omega

/-- The fills with the orders they are fills of. -/
def fillsOf (env : Env) (seq : Nat) (tr : List Visit) : List (Comp × LeafNode × FillEvent) :=
  tr.filterMap (fun v => (v.fill? env seq).map (fun f => (v.item.comp, v.item.leaf, f)))

theorem fillsOf_map (seq : Nat) (tr : List Visit) : (fillsOf env seq tr).map (·.2.2) = tr.filterMap (Visit.fill? env seq) := by
  unfold fillsOf
  rw [List.map_filterMap]
  congr 1
  funext v
  cases v.fill? env seq <;> rfl

theorem ekey_before {s : Side} {i j : IterItem} (hi : 0 ≤ i.priceLots) (hj : 0 ≤ j.priceLots)
    (h : geKey s i.ekey j.ekey) : ¬ Before s j.priceLots j.leaf i.priceLots i.leaf := by
  unfold IterItem.ekey effKey two64 at h
  unfold Before betterPrice seqNo
  cases s <;> (simp only [geKey] at h ⊢; omega)

theorem priority_split (hc : Core g book dB dQ) (hb : (book.side env.order.side.invert).side = env.order.side.invert)
    (ho : BSOk (book.side env.order.side.invert) ot) {A B : List IterItem} {i : IterItem} (hs : callItems env ot = A ++ i :: B)
    {j : IterItem} (hj : j ∈ callItems env ot) (hbe : Before env.order.side.invert j.priceLots j.leaf i.priceLots i.leaf) : j ∈ A := by
  have hp := items_priority hc hb ho
  have hi : i ∈ callItems env ot := by rw [hs]; simp
  have h1 := (item_spec hc ho hi).pos
  have h2 := (item_spec hc ho hj).pos
  rw [hs] at hj hp
  rcases List.mem_append.mp hj with hj | hj
  · exact hj
  · exfalso
    rcases List.mem_cons.mp hj with rfl | hj
    · unfold Before betterPrice at hbe
      cases hsd : env.order.side.invert <;> rw [hsd] at hbe <;> simp at hbe
    · have := (List.pairwise_cons.mp (List.pairwise_append.mp hp).2.1).1 j hj
      exact ekey_before (by omega) (by omega) this hbe

/-- An order with priority over a visited one was visited before. -/
theorem LoopTrace.visited_before (T : LoopTrace env price m (callItems env ot) s tr todo) (hc : Core g book dB dQ)
    (hb : (book.side env.order.side.invert).side = env.order.side.invert) (ho : BSOk (book.side env.order.side.invert) ot)
    {v : Visit} (hv : v ∈ tr) {j : IterItem} (hj : j ∈ callItems env ot)
    (hbe : Before env.order.side.invert j.priceLots j.leaf v.item.priceLots v.item.leaf) :
    ∃ w ∈ tr, w.item = j ∧ v.rb ≤ w.rb - w.qty ∧ v.rq ≤ w.rq - w.qty * w.item.priceLots := by
  obtain ⟨A, B, rfl⟩ := List.append_of_mem hv
  have hs : callItems env ot = A.map (·.item) ++ v.item :: (B.map (·.item) ++ todo) := by rw [← T.split]; simp
  have := priority_split hc hb ho hs hj hbe
  obtain ⟨w, hw, rfl⟩ := List.mem_map.mp this
  refine ⟨w, by simp [hw], rfl, ?_⟩
  exact (List.pairwise_append.mp T.pair).2.2 w hw v (by simp)

theorem precedes_price {s : Side} {p p' : Int} {l l' : LeafNode} (h : Before s p l p' l') : ¬ betterPrice s p' p := by
  unfold Before betterPrice at *
  cases s <;> (simp only at *; omega)

end

/-! ### a call -/

/-- Everything known of a call. -/
structure CallRun (env : Env) (book : Book) (g : Ledger) (r : OrderResult) (book' : Book) (g' : Ledger) where
  dB : Int
  dQ : Int
  core : Core g book dB dQ
  R : NewOrderRun env book g r book' g'
  ot : Comp → Option T
  P : PlaceRes env book g r book' g' R ot dB dQ
  tr : List Visit
  todo : List IterItem
  T : LoopTrace env R.priceLots { g.market with seqNum := g.market.seqNum + 1 } (callItems env ot) R.s tr todo
  valid : CallValid env g

theorem callRun {env : Env} {book book' : Book} {g g' : Ledger} {r : OrderResult}
    (h : EngineCall env book g r book' g') : Nonempty (CallRun env book g r book' g') := by
  obtain ⟨dB, dQ, hcore, R, ot, hP⟩ := engine_call h.state h.valid h.run
  obtain ⟨tr, todo, hT⟩ := hP.trace
  exact ⟨⟨dB, dQ, hcore, R, ot, hP, tr, todo, hT, h.valid⟩⟩

namespace CallRun
variable {env : Env} {book book' : Book} {g g' : Ledger} {r : OrderResult}

theorem side (C : CallRun env book g r book' g') : (book.side env.order.side.invert).side = env.order.side.invert :=
  C.core.bookOk.side _

theorem fills (C : CallRun env book g r book' g') : r.fills = C.tr.filterMap (Visit.fill? env (g.market.seqNum + 1)) :=
  C.R.fills.trans C.T.fills

theorem fillsOf_eq (C : CallRun env book g r book' g') : (fillsOf env (g.market.seqNum + 1) C.tr).map (·.2.2) = r.fills := by
  rw [fillsOf_map, C.fills]

theorem fill_visit (C : CallRun env book g r book' g') {f : FillEvent} (hf : f ∈ r.fills) :
    ∃ v ∈ C.tr, v.fill? env (g.market.seqNum + 1) = some f ∧ IsFillOf env book v.item.comp v.item.leaf f := by
  rw [C.fills] at hf
  obtain ⟨v, hv, he⟩ := List.mem_filterMap.mp hf
  exact ⟨v, hv, he, isFillOf C.core C.P.opp C.T hv he⟩

theorem visit_fill (C : CallRun env book g r book' g') {v : Visit} (hv : v ∈ C.tr) {q : Int} {sf : Bool} (hf : v.fate = .fill q sf) :
    ∃ f ∈ r.fills, IsFillOf env book v.item.comp v.item.leaf f ∧ f.quantity = q ∧ f.price = v.item.priceLots := by
  have he := (fill_some (env := env) (seq := g.market.seqNum + 1)).mpr ⟨q, sf, hf, rfl⟩
  refine ⟨_, ?_, isFillOf C.core C.P.opp C.T hv he, rfl, rfl⟩
  rw [C.fills]
  exact List.mem_filterMap.mpr ⟨v, hv, he⟩

/-- The limit price bounds the price used for matching. -/
theorem limit (C : CallRun env book g r book' g') {lim : Int} (hl : limitOf env.order env.oracle = some lim) :
    within env.order.side C.R.priceLots lim := by
  have hp := C.R.price
  have key : ∀ p t, priceForOrderType env.order.side env.nowTs env.oracle p t book = .ok C.R.priceLots →
      within env.order.side C.R.priceLots p := by
    intro p t h
    unfold priceForOrderType at h
    split at h
    · simp only [bind_ok] at h
      obtain ⟨b, hb, h⟩ := h
      cases b with
      | none => injection h with h; rw [h]; unfold within; cases env.order.side <;> simp
      | some best =>
        simp only at h
        unfold postOnlySlideLimit at h
        unfold within
        cases hs : env.order.side <;> rw [hs] at h <;> simp only [bind_ok, ckI64_ok, pure_ok, Except.ok.injEq] at h ⊢ <;>
          obtain ⟨_, ⟨_, rfl⟩, h⟩ := h <;> omega
    · injection h with h; rw [h]; unfold within; cases env.order.side <;> simp
  unfold Order.priceLots at hp
  unfold limitOf at hl
  split at hp
  · rename_i hq; rw [hq] at hl; cases hl
  · rename_i p hq; rw [hq] at hl; injection hl with hl; injection hp with hp; rw [← hp, hl]; unfold within; cases env.order.side <;> simp
  · rename_i p hq; rw [hq] at hl; injection hl with hl; injection hp with hp; rw [← hp, hl]; unfold within; cases env.order.side <;> simp
  · rename_i p t hq; rw [hq] at hl; injection hl with hl; rw [← hl]; exact key p t hp
  · rename_i off t pl hq
    rw [hq] at hl
    cases hor : env.oracle with
    | none => rw [hor] at hl; cases hl
    | some o =>
      rw [hor] at hl hp
      injection hl with hl
      simp only [bind_ok, req_ok] at hp
      obtain ⟨_, _, hp⟩ := hp
      rw [← hor] at hp
      rw [← hl]; exact key _ _ hp

theorem within_trans {s : Side} {a b c : Int} (h1 : within s a b) (h2 : within s b c) : within s a c := by
  unfold within at *; cases s <;> (simp only at *; omega)

theorem sumBase (C : CallRun env book g r book' g') : C.R.s.remBase + sumQty r.fills = env.order.maxBaseLots := by
  rw [C.R.fills]; exact C.P.loop.sumB

theorem sumQuote (C : CallRun env book g r book' g') : C.R.s.remQuote + Spec.sumQuote r.fills = C.R.maxQ := by
  rw [C.R.fills]; exact C.P.loop.sumQ

theorem oppSide (C : CallRun env book g r book' g') : book'.side env.order.side.invert = C.R.opp2 := by
  rcases C.R.post with ⟨_, _, _, _, _, _, e, _⟩ | ⟨c, own, outs, _, _, _, _, e⟩
  · refine (congrArg (fun b => Book.side b env.order.side.invert) e).trans ?_
    exact Book.side_setSide _ _ _
  · refine (congrArg (fun b => Book.side b env.order.side.invert) e).trans ?_
    show Book.side _ env.order.side.invert = _
    rw [Book.side_setSide_invert', Book.side_setSide]

theorem mem_after (C : CallRun env book g r book' g') {c : Comp} {l : LeafNode} :
    (env.order.side.invert, c, l) ∈ book'.resting ↔ l ∈ virt (oppL C.ot) C.R.s.changes C.R.s.deletes c := by
  rw [mem_resting, C.oppSide]
  obtain ⟨_, _, _, hp⟩ := C.P.opp2
  exact (hp c).mem_iff

theorem ownSide_none (C : CallRun env book g r book' g') (h : r.orderId = none) :
    book'.side env.order.side = book.side env.order.side := by
  rcases C.R.post with ⟨_, _, _, _, _, _, e, _⟩ | ⟨c, own, outs, _, e, _⟩
  · refine (congrArg (fun b => Book.side b env.order.side) e).trans ?_
    exact Book.side_setSide_invert _ _ _
  · rw [h] at e; cases e

theorem maxQ_ask (C : CallRun env book g r book' g') (h : env.order.side = .ask ∨ env.order.isPostOnly = true) :
    C.R.maxQ = env.order.maxQuoteLotsIncludingFees := by
  have := C.R.maxQEq
  rw [if_neg (by rintro ⟨h1, h2⟩; rcases h with h | h <;> simp_all)] at this
  injection this with this
  exact this.symm

theorem maxQ_bid (C : CallRun env book g r book' g') (h1 : env.order.side = .bid) (h2 : env.order.isPostOnly = false) :
    C.R.maxQ = env.order.maxQuoteLotsIncludingFees * 1000000 / (1000000 + g.market.takerFee) := by
  have := C.R.maxQEq
  rw [if_pos ⟨h1, h2⟩] at this
  exact (subtractTakerFees_inv C.core.fees.t0 C.valid.order.quote.1 this).1

/-- What became of a valid order visited before a fill. -/
theorem used_up (C : CallRun env book g r book' g') {v : Visit} (hv : v ∈ C.tr) {qv : Int} {sv : Bool} (hfv : v.fate = .fill qv sv)
    {j : IterItem} (hj : j ∈ callItems env C.ot) (hjv : j.state = .valid)
    (hbe : Before env.order.side.invert j.priceLots j.leaf v.item.priceLots v.item.leaf) :
    ∃ w ∈ C.tr, w.item = j ∧ (w.fate = .cancel ∨ ∃ q sf, w.fate = .fill q sf ∧
      (q = j.leaf.quantity ∨ (env.order.side = .ask ∧ env.order.maxQuoteLotsIncludingFees - Spec.sumQuote r.fills < j.priceLots))) := by
  obtain ⟨w, hw, rfl, h1, h2⟩ := C.T.visited_before C.core C.side C.P.opp hv hj hbe
  refine ⟨w, hw, rfl, ?_⟩
  cases hf : w.fate with
  | cancel => exact .inl rfl
  | drop => exact absurd hjv ((C.T.ok w hw).drop hf)
  | ignore => exact absurd hjv ((C.T.ok w hw).ignore hf)
  | fill q sf =>
    right
    refine ⟨q, sf, rfl, ?_⟩
    have hq : w.qty = q := by unfold Visit.qty; rw [hf]
    rw [hq] at h1 h2
    obtain ⟨_, _, _, hp1, hq1, _, _, _, hmax, _⟩ := (C.T.ok w hw).fill q sf hf
    obtain ⟨_, _, _, hpv, hqv, _, _, hqq, _⟩ := (C.T.ok v hv).fill qv sv hfv
    have hvb := (C.T.ok v hv).rb
    rcases hmax with hm | hm | hm
    · omega
    · exact .inl hm
    · right
      cases hs : env.order.side with
      | bid =>
        exfalso
        have hnb := precedes_price hbe
        rw [hs] at hnb
        simp only [Side.invert, betterPrice] at hnb
        have : 1 * v.item.priceLots ≤ qv * v.item.priceLots := Int.mul_le_mul_of_nonneg_right hqv (by omega)
        omega
      | ask =>
        refine ⟨rfl, ?_⟩
        have hr := (C.T.rem w hw).2
        rw [hq] at hr
        have hsum := C.sumQuote
        rw [C.maxQ_ask (.inl hs)] at hsum
        omega

end CallRun
end OB
