import Verif.Proofs.Ledger
import Verif.Proofs.VBook
import Verif.Proofs.Items
import Verif.Proofs.MatchStep
/-! The invariant of the matching loop. -/
namespace OB

theorem foldItems_induct {env : Env} {price : Int} {I : List IterItem → List IterItem → MatchSt → Prop} {J : MatchSt → Prop}
    (hend : ∀ done s, I done [] s → J s)
    (hgo : ∀ done i todo s s', I done (i :: todo) s → StepOut env price i s true s' → I (done ++ [i]) todo s')
    (hstop : ∀ done i todo s s', I done (i :: todo) s → StepOut env price i s false s' → J s') :
    ∀ todo done s s', I done todo s → foldItems env price todo s = .ok s' → J s' := by
  intro todo
  induction todo with
  | nil => intro done s s' hI h; cases h; exact hend done s hI
  | cons i is ih =>
    intro done s s' hI h
    rw [foldItems] at h
    simp only [bind_ok] at h
    obtain ⟨⟨go, s1⟩, hm, h⟩ := h
    have hs := matchStep_inv hm
    cases go with
    | false => cases h; exact hstop done i is s s1 hI hs
    | true => exact ih (done ++ [i]) s1 s' (hgo done i is s s1 hI hs) h

/-- Resting orders of one side. -/
def sideRests (s : Side) (L : Comp → List LeafNode) : Rests :=
  (L .fixed).map (fun l => (s, Comp.fixed, l)) ++ (L .pegged).map (fun l => (s, Comp.pegged, l))

theorem sideRests_perm {s : Side} {L L' : Comp → List LeafNode} (h : ∀ c, (L c).Perm (L' c)) :
    (sideRests s L).Perm (sideRests s L') := ((h .fixed).map _).append ((h .pegged).map _)

theorem sideRests_cons {s : Side} {L L' : Comp → List LeafNode} {c : Comp} {l : LeafNode} (h : (L c).Perm (l :: L' c))
    (ho : ∀ c', c' ≠ c → L c' = L' c') : (sideRests s L).Perm ((s, c, l) :: sideRests s L') := by
  cases c with
  | fixed =>
    have := ho .pegged (by decide)
    unfold sideRests; rw [this]
    exact (h.map _).append (List.Perm.refl _)
  | pegged =>
    have := ho .fixed (by decide)
    unfold sideRests; rw [this]
    exact (List.Perm.append (List.Perm.refl _) (h.map _)).trans List.perm_middle

/-- What is known of an item offered by the iterator. -/
structure ItemOk (side : Side) (now : Nat) (oracle : Option Int) (i : IterItem) : Prop where
  fixed : i.comp = .fixed → i.priceLots = i.leaf.priceData
  pegged : i.comp = .pegged → ∃ o, oracle = some o ∧ i.priceLots = o + oraclePeggedPriceOffset i.leaf.priceData ∧
    1 ≤ i.priceLots ∧ i.priceLots < i64Max ∧
    (i.state = .valid → i.leaf.pegLimit = -1 ∨ side.isPriceBetter i.priceLots i.leaf.pegLimit = false)
  valid : i.state = .valid → i.leaf.isExpired now = false
  invalid : i.state ≠ .valid → i.leaf.isExpired now = true ∨
    (i.comp = .pegged ∧ i.leaf.pegLimit ≠ -1 ∧ side.isPriceBetter i.priceLots i.leaf.pegLimit = true)

theorem items_ok {s : Side} {now : Nat} {oracle : Option Int} (F P : HL) : ∀ i ∈ items s now oracle F P,
    ItemOk s now oracle i ∧ ((i.comp = .fixed ∧ i.ref ∈ F) ∨ (i.comp = .pegged ∧ i.ref ∈ P)) := by
  intro i hi
  rcases items_mem F P i hi with ⟨f, hf, rfl⟩ | ⟨o, ho, p, hp, hs, rfl⟩
  · refine ⟨⟨fun _ => rfl, (fun h => nomatch h), ?_, ?_⟩, .inl ⟨rfl, hf⟩⟩
    · intro h; simp only [fixedItem] at h ⊢; split at h
      · cases h
      · rename_i hx; simpa using hx
    · intro h; simp only [fixedItem] at h ⊢; split at h
      · rename_i hx; exact .inl hx
      · exact absurd rfl h
  · obtain ⟨h1, h2, h3⟩ := notSkipped_price hs
    have hst : (oraclePeggedPrice o p.2 s).1 = if p.2.pegLimit ≠ -1 ∧
        s.isPriceBetter (o + oraclePeggedPriceOffset p.2.priceData) p.2.pegLimit = true then .invalid else .valid := by
      have hs' : (oraclePeggedPrice o p.2 s).1 ≠ .skipped := by simpa [isSkipped] using hs
      unfold oraclePeggedPrice at hs' h1 ⊢
      simp only at hs' h1 ⊢
      split at hs'
      · rename_i hr
        rw [if_pos hr] at h1 ⊢
        split at h1
        · rename_i hb
          simp only at h1
          rw [h1] at hb ⊢
          rw [if_pos hb, if_pos hb]
        · rename_i hb
          simp only at h1
          rw [h1] at hb ⊢
          rw [if_neg hb, if_neg hb]
      · exact absurd rfl hs'
    refine ⟨⟨(fun h => nomatch h), ?_, ?_, ?_⟩, .inr ⟨rfl, hp⟩⟩
    · intro _
      refine ⟨o, ho, h1, by show 1 ≤ (oraclePeggedPrice o p.2 s).2; rw [h1]; exact h2,
        by show (oraclePeggedPrice o p.2 s).2 < _; rw [h1]; exact h3, ?_⟩
      intro hv
      simp only [peggedItem, peggedToResult] at hv ⊢
      split at hv
      · cases hv
      · rw [hst] at hv
        split at hv
        · cases hv
        · rename_i hx
          rw [h1]
          by_cases hpl : p.2.pegLimit = -1
          · exact .inl hpl
          · right
            cases hb : s.isPriceBetter (o + oraclePeggedPriceOffset p.2.priceData) p.2.pegLimit with
            | false => rfl
            | true => exact absurd ⟨hpl, hb⟩ hx
    · intro hv
      simp only [peggedItem, peggedToResult] at hv ⊢
      split at hv
      · cases hv
      · rename_i hx; simpa using hx
    · intro hv
      simp only [peggedItem, peggedToResult] at hv ⊢
      split at hv
      · rename_i hx; exact .inl hx
      · right
        rw [hst] at hv
        split at hv
        · rename_i hx; rw [h1]; exact ⟨trivial, hx⟩
        · exact absurd rfl hv

/-- Items have distinct handles. -/
theorem items_handles {s : Side} {now : Nat} {oracle : Option Int} (F P : HL) (h : (F.map (·.1) ++ P.map (·.1)).Nodup) :
    ((items s now oracle F P).map (·.handle)).Nodup := by
  have hp : ((items s now oracle F P)).Perm ((items s now oracle F P).filter (fun i => i.comp = .fixed) ++
      (items s now oracle F P).filter (fun i => i.comp = .pegged)) := by
    have h1 := (List.filter_append_perm (fun i : IterItem => decide (i.comp = .fixed)) (items s now oracle F P)).symm
    have h2 : (fun i : IterItem => !decide (i.comp = .fixed)) = (fun i => decide (i.comp = .pegged)) := by
      funext i; cases hc : i.comp <;> simp
    rw [h2] at h1
    exact h1
  have hm := hp.map (·.handle)
  rw [hm.nodup_iff, List.map_append]
  have e1 : ((items s now oracle F P).filter (fun i => i.comp = .fixed)).map (·.handle) = F.map (·.1) := by
    have := congrArg (List.map (·.1)) (items_fixed (s := s) (now := now) (oracle := oracle) F P)
    simp only [List.map_map] at this; exact this
  have e2 : (((items s now oracle F P).filter (fun i => i.comp = .pegged)).map (·.handle)).Sublist (P.map (·.1)) := by
    have := (items_pegged (s := s) (now := now) (oracle := oracle) F P).map (·.1)
    simp only [List.map_map] at this; exact this
  rw [e1]
  exact h.sublist ((List.Sublist.refl _).append e2)

/-- Fixed inputs of the loop. -/
structure LoopEnv (env : Env) (E : Comp → HL) (g0 : Ledger) (maxQ : Int) : Prop where
  bls : 0 < g0.market.baseLotSize
  qls : 0 < g0.market.quoteLotSize
  maxQ : maxQ * g0.market.quoteLotSize ≤ i64Max
  entries : EntriesOk E
  noTaker : env.hasOO = false → g0.accts.get? env.owner = none

def loopB (B0 : Int) (side : Side) (bls taken : Int) : Int := match side with | .bid => B0 - taken * bls | .ask => B0 + taken * bls
def loopQ (Q0 : Int) (side : Side) (qls taken rebates : Int) : Int :=
  match side with | .bid => Q0 + taken * qls + rebates | .ask => Q0 + rebates - taken * qls

/-- A recorded fill. -/
structure FillRec (env : Env) (price : Int) (g0 : Ledger) (E : Comp → HL) (i : IterItem) (f : FillEvent) : Prop where
  item : ItemOk env.order.side.invert env.nowTs env.oracle i
  mem : i.ref ∈ E i.comp
  valid : i.state = .valid
  eq : f = mkFill env g0.market.seqNum i f.makerOut f.quantity
  pos : 1 ≤ f.quantity
  le : f.quantity ≤ i.leaf.quantity
  out : f.makerOut = true ↔ i.leaf.quantity = f.quantity
  within : env.order.side.isPriceWithinLimit i.priceLots price = true

/-- A recorded out event. -/
structure OutRec (env : Env) (E : Comp → HL) (i : IterItem) (e : OutEvent) : Prop where
  item : ItemOk env.order.side.invert env.nowTs env.oracle i
  mem : i.ref ∈ E i.comp
  invalid : i.state ≠ .valid
  out : OutOf e env.order.side.invert i.leaf

structure LoopI (env : Env) (price : Int) (E : Comp → HL) (own : Rests) (g0 : Ledger) (maxB maxQ B0 Q0 : Int) (n : Nat)
    (todo : List IterItem) (s : MatchSt) : Prop where
  frame : LFrame g0 s.g
  seq : s.g.market.seqNum = g0.market.seqNum
  fits : Fits E s.changes s.deletes
  fresh : ∀ i ∈ todo, Fresh E s.changes s.deletes i.comp i.ref
  items : ∀ i ∈ todo, ItemOk env.order.side.invert env.nowTs env.oracle i
  nodup : (todo.map (·.handle)).Nodup
  linv : LInv s.g (sideRests env.order.side.invert (virt E s.changes s.deletes) ++ own)
    (loopB B0 env.order.side g0.market.baseLotSize (maxB - s.remBase))
    (loopQ Q0 env.order.side g0.market.quoteLotSize (maxQ - s.remQuote) s.rebates) (fun _ => 0) n
  base0 : 0 ≤ s.remBase
  baseLe : s.remBase ≤ maxB
  quote0 : 0 ≤ s.remQuote
  quoteLe : s.remQuote ≤ maxQ
  decr0 : 0 ≤ s.decr
  decrLe : s.decr ≤ maxQ - s.remQuote
  noSelf : env.hasOO = false → s.decr = 0
  reb0 : 0 ≤ s.rebates
  reb : s.rebates * 1000000 ≤ (maxQ - s.remQuote - s.decr) * g0.market.quoteLotSize * max (-g0.market.makerFee) 0
  lim : s.limit + s.fills.length = env.limit
  dropped : s.outs.length = s.dropped ∧ s.dropped ≤ 5
  post : env.order.isPostOnly = true → s.fills = []
  target : s.postTarget = env.order.postTarget ∨ s.postTarget = none
  fills : ∀ f ∈ s.fills, ∃ i, FillRec env price g0 E i f
  outs : ∀ e ∈ s.outs, ∃ i, OutRec env E i e
  sumB : s.remBase + (s.fills.map (·.quantity)).sum = maxB
  sumQ : s.remQuote + (s.fills.map (fun f => f.quantity * f.price)).sum = maxQ
  events : ∃ A, s.g.heap.events = g0.heap.events ++ A ∧ A.length ≤ s.outs.length + s.fills.length ∧
    ∀ e ∈ A, (∃ f ∈ s.fills, e = .fill f) ∨ ∃ o ∈ s.outs, e = .out o

theorem nodup_map_inj {α β : Type} {f : α → β} {L : List α} (hn : (L.map f).Nodup) {a b : α} (ha : a ∈ L) (hb : b ∈ L)
    (h : f a = f b) : a = b := by
  induction L with
  | nil => cases ha
  | cons x L ih =>
    rw [List.map_cons, List.nodup_cons] at hn
    rcases List.mem_cons.mp ha with rfl | ha' <;> rcases List.mem_cons.mp hb with rfl | hb'
    · rfl
    · exact absurd (List.mem_map_of_mem (f := f) hb') (by rw [← h]; exact hn.1)
    · exact absurd (List.mem_map_of_mem (f := f) ha') (by rw [h]; exact hn.1)
    · exact ih hn.2 ha' hb'

theorem fresh_delete {E : Comp → HL} (hE : EntriesOk E) {C : List (Nat × Int)} {D : List (Comp × Nat)} {i j : IterItem}
    (hi : Fresh E C D i.comp i.ref) (hj : Fresh E C D j.comp j.ref) (hne : j.handle ≠ i.handle) :
    Fresh E C (D ++ [(i.comp, i.leaf.key)]) j.comp j.ref := by
  refine ⟨hj.mem, hj.chg, ?_⟩
  rw [List.mem_append, not_or]
  refine ⟨hj.del, ?_⟩
  intro h
  simp only [List.mem_singleton, Prod.mk.injEq] at h
  obtain ⟨h1, h2⟩ := h
  have hm := hj.mem
  rw [h1] at hm
  have hk := hE.keys i.comp
  have : j.ref = i.ref := nodup_map_inj hk hm hi.mem h2
  exact hne (congrArg Prod.fst this)

theorem fresh_change {E : Comp → HL} {C : List (Nat × Int)} {D : List (Comp × Nat)} {i j : IterItem} {q : Int}
    (hj : Fresh E C D j.comp j.ref) (hne : j.handle ≠ i.handle) : Fresh E (C ++ [(i.handle, q)]) D j.comp j.ref := by
  refine ⟨hj.mem, ?_, hj.del⟩
  rw [List.map_append, List.mem_append, not_or]
  refine ⟨hj.chg, ?_⟩
  intro h
  simp only [List.map_cons, List.map_nil, List.mem_singleton] at h
  exact hne h

theorem floorRebate_mul_le (mf a : Int) : floorRebate mf a * 1000000 ≤ a * max (-mf) 0 := by
  unfold floorRebate; omega

theorem within_of_quote {q p r : Int} (hp : 1 ≤ p) (hr : 0 ≤ r) (hq : q ≤ r.tdiv p) : q * p ≤ r := by
  rw [Int.tdiv_eq_ediv_of_nonneg hr] at hq
  have h1 : r / p * p ≤ r := Int.ediv_mul_le _ (by omega)
  have h2 : q * p ≤ r / p * p := Int.mul_le_mul_of_nonneg_right hq (by omega)
  omega

section
variable {env : Env} {price : Int} {E : Comp → HL} {own : Rests} {g0 : Ledger} {maxB maxQ B0 Q0 : Int} {n : Nat}

/-- Taking an item out of the virtual side. -/
theorem LoopI.head {i : IterItem} {todo : List IterItem} {s : MatchSt} (hE : LoopEnv env E g0 maxQ)
    (h : LoopI env price E own g0 maxB maxQ B0 Q0 n (i :: todo) s) :
    ∃ oo, OblOk s.g.market (.rest env.order.side.invert i.comp i.leaf oo) ∧ ∃ a, s.g.accts.get? i.leaf.owner = some a := by
  obtain ⟨h1, h2⟩ := virt_delete hE.entries (h.fresh i (by simp))
  have hp := sideRests_cons (s := env.order.side.invert) h1 (fun c' hc => (h2 c' hc).symm)
  have hl := h.linv.perm (hp.append_right own)
  rw [List.cons_append] at hl
  obtain ⟨oo, R, q, hw, _⟩ := hl.takeRest
  exact ⟨oo, hw.ginv.ok _ (by simp), hw.ginv.owner _ (List.mem_cons_self ..)⟩

theorem LoopI.pricePos {i : IterItem} {oo : OpenOrder} {m : Market} (hi : ItemOk env.order.side.invert env.nowTs env.oracle i)
    (ho : OblOk m (.rest env.order.side.invert i.comp i.leaf oo)) : 1 ≤ i.priceLots := by
  have hr := ho.rest _ _ _ _ rfl
  cases hc : i.comp with
  | fixed => rw [hi.fixed hc]; have := (hr.fixed hc).1; omega
  | pegged => obtain ⟨_, _, _, h1, _⟩ := hi.pegged hc; exact h1

theorem LoopI.headPerm {i : IterItem} {todo : List IterItem} {s : MatchSt} (hE : LoopEnv env E g0 maxQ)
    (h : LoopI env price E own g0 maxB maxQ B0 Q0 n (i :: todo) s) :
    LInv s.g ((env.order.side.invert, i.comp, i.leaf) ::
      (sideRests env.order.side.invert (virt E s.changes (s.deletes ++ [(i.comp, i.leaf.key)])) ++ own))
      (loopB B0 env.order.side g0.market.baseLotSize (maxB - s.remBase))
      (loopQ Q0 env.order.side g0.market.quoteLotSize (maxQ - s.remQuote) s.rebates) (fun _ => 0) n := by
  obtain ⟨h1, h2⟩ := virt_delete hE.entries (h.fresh i (by simp))
  have hp := sideRests_cons (s := env.order.side.invert) h1 (fun c' hc => (h2 c' hc).symm)
  exact h.linv.perm (hp.append_right own)

/-- The remaining items once the head has been deleted. -/
theorem LoopI.freshDel {i : IterItem} {todo : List IterItem} {s : MatchSt} (hE : LoopEnv env E g0 maxQ)
    (h : LoopI env price E own g0 maxB maxQ B0 Q0 n (i :: todo) s) :
    ∀ j ∈ todo, Fresh E s.changes (s.deletes ++ [(i.comp, i.leaf.key)]) j.comp j.ref := by
  intro j hj
  have hn := h.nodup
  rw [List.map_cons, List.nodup_cons] at hn
  refine fresh_delete hE.entries (h.fresh i (by simp)) (h.fresh j (by simp [hj])) ?_
  intro he
  exact hn.1 (he ▸ List.mem_map_of_mem (f := fun x : IterItem => x.handle) hj)

theorem LoopI.freshChg {i : IterItem} {todo : List IterItem} {s : MatchSt}
    (h : LoopI env price E own g0 maxB maxQ B0 Q0 n (i :: todo) s) (q : Int) :
    ∀ j ∈ todo, Fresh E (s.changes ++ [(i.handle, q)]) s.deletes j.comp j.ref := by
  intro j hj
  have hn := h.nodup
  rw [List.map_cons, List.nodup_cons] at hn
  refine fresh_change (h.fresh j (by simp [hj])) ?_
  intro he
  exact hn.1 (he ▸ List.mem_map_of_mem (f := fun x : IterItem => x.handle) hj)

theorem LoopI.tail {i : IterItem} {todo : List IterItem} {s : MatchSt}
    (h : LoopI env price E own g0 maxB maxQ B0 Q0 n (i :: todo) s) : LoopI env price E own g0 maxB maxQ B0 Q0 n todo s := by
  have hn := h.nodup
  rw [List.map_cons, List.nodup_cons] at hn
  exact { h with fresh := fun j hj => h.fresh j (by simp [hj]), items := fun j hj => h.items j (by simp [hj]), nodup := hn.2 }

theorem LoopI.drop {i : IterItem} {todo : List IterItem} {s : MatchSt} (hE : LoopEnv env E g0 maxQ)
    (h : LoopI env price E own g0 maxB maxQ B0 Q0 n (i :: todo) s) {g : Ledger} (hs : i.state ≠ .valid)
    (hd : s.dropped < dropExpiredOrderLimit)
    (hp : processOutEvent (dropEvent env i s) env.hasOO env.owner env.rem s.g = .ok g) :
    LoopI env price E own g0 maxB maxQ B0 Q0 n todo
      { s with dropped := s.dropped + 1, deletes := s.deletes ++ [(i.comp, i.leaf.key)], g := g,
               outs := s.outs ++ [dropEvent env i s] } := by
  have hbls : 0 < s.g.market.baseLotSize := by rw [h.frame.bls]; exact hE.bls
  have hqls : 0 < s.g.market.quoteLotSize := by rw [h.frame.qls]; exact hE.qls
  have ho : OutOf (dropEvent env i s) env.order.side.invert i.leaf := ⟨rfl, rfl, rfl, rfl⟩
  obtain ⟨h1, h2, h3, h4⟩ := (h.headPerm hE).processOut hbls hqls ho hp
  have hi := h.items i (by simp)
  have ht := h.tail
  exact {
    frame := h.frame.trans h2
    seq := by show g.market.seqNum = _; rw [h3]; exact h.seq
    fits := h.fits.delete (h.fresh i (by simp))
    fresh := h.freshDel hE
    items := ht.items
    nodup := ht.nodup
    linv := h1
    base0 := h.base0, baseLe := h.baseLe, quote0 := h.quote0, quoteLe := h.quoteLe, decr0 := h.decr0, decrLe := h.decrLe
    noSelf := h.noSelf, reb0 := h.reb0, reb := h.reb, lim := h.lim
    dropped := by
      have := h.dropped
      refine ⟨by simp only [List.length_append, List.length_cons, List.length_nil]; omega, ?_⟩
      unfold dropExpiredOrderLimit at hd; show s.dropped + 1 ≤ 5; omega
    post := h.post
    target := h.target
    fills := h.fills
    outs := by
      intro e he
      rcases List.mem_append.mp he with he | he
      · exact h.outs e he
      · simp only [List.mem_singleton] at he; subst he
        exact ⟨i, hi, (h.fresh i (by simp)).mem, hs, ho⟩
    sumB := h.sumB
    sumQ := h.sumQ
    events := by
      obtain ⟨A, hA1, hA2, hA3⟩ := h.events
      rcases h4 with ⟨h4, _⟩ | h4
      · refine ⟨A, by rw [← hA1, ← h4], by simp only [List.length_append, List.length_cons, List.length_nil]; omega, ?_⟩
        intro e he
        rcases hA3 e he with hx | ⟨o, hx, hy⟩
        · exact .inl hx
        · exact .inr ⟨o, by simp [hx], hy⟩
      · refine ⟨A ++ [.out (dropEvent env i s)], by rw [← List.append_assoc, ← hA1, ← h4], ?_, ?_⟩
        · simp only [List.length_append, List.length_cons, List.length_nil]; omega
        · intro e he
          rcases List.mem_append.mp he with he | he
          · rcases hA3 e he with hx | ⟨o, hx, hy⟩
            · exact .inl hx
            · exact .inr ⟨o, by simp [hx], hy⟩
          · simp only [List.mem_singleton] at he
            exact .inr ⟨dropEvent env i s, by simp, he⟩ }

theorem LoopI.cancelOwn {i : IterItem} {todo : List IterItem} {s : MatchSt} (hE : LoopEnv env E g0 maxQ)
    (h : LoopI env price E own g0 maxB maxQ B0 Q0 n (i :: todo) s) {a a' : OOA} (hself : selfTrade env i)
    (ha : s.g.accts.get env.owner = .ok a)
    (hc : a.cancelOrder i.leaf.ownerSlot i.leaf.quantity s.g.market = .ok a') :
    LoopI env price E own g0 maxB maxQ B0 Q0 n todo
      { s with deletes := s.deletes ++ [(i.comp, i.leaf.key)], g := { s.g with accts := s.g.accts.set env.owner a' } } := by
  have hbls : 0 < s.g.market.baseLotSize := by rw [h.frame.bls]; exact hE.bls
  have hqls : 0 < s.g.market.quoteLotSize := by rw [h.frame.qls]; exact hE.qls
  rw [Accts.get_ok, hself.2] at ha
  obtain ⟨h1, h2⟩ := (h.headPerm hE).cancelRest hbls hqls ha hc
  rw [← hself.2] at h1 h2
  have ht := h.tail
  exact {
    frame := h.frame.trans h2
    seq := h.seq
    fits := h.fits.delete (h.fresh i (by simp))
    fresh := h.freshDel hE
    items := ht.items
    nodup := ht.nodup
    linv := h1
    base0 := h.base0, baseLe := h.baseLe, quote0 := h.quote0, quoteLe := h.quoteLe, decr0 := h.decr0, decrLe := h.decrLe
    noSelf := h.noSelf, reb0 := h.reb0, reb := h.reb, lim := h.lim, dropped := h.dropped
    post := h.post, target := h.target, fills := h.fills, outs := h.outs, sumB := h.sumB, sumQ := h.sumQ, events := h.events }

/-- Facts about the quantity matched. -/
structure QtyOk (i : IterItem) (s : MatchSt) (m : Market) : Prop where
  price : 1 ≤ i.priceLots
  qty : 1 ≤ matchQty i s
  leRem : matchQty i s ≤ s.remBase
  leLeaf : matchQty i s ≤ i.leaf.quantity
  leQuote : matchQty i s * i.priceLots ≤ s.remQuote
  max : matchQty i s = s.remBase ∨ matchQty i s = i.leaf.quantity ∨ s.remQuote - matchQty i s * i.priceLots < i.priceLots

theorem LoopI.qtyOk {i : IterItem} {todo : List IterItem} {s : MatchSt} (hE : LoopEnv env E g0 maxQ)
    (h : LoopI env price E own g0 maxB maxQ B0 Q0 n (i :: todo) s) (hm : Matchable env price i s) : QtyOk i s s.g.market := by
  obtain ⟨oo, ho, _⟩ := h.head hE
  have hp := LoopI.pricePos (h.items i (by simp)) ho
  have hq : 1 ≤ i.leaf.quantity := ho.qty
  have hb := h.base0
  have hb' := hm.rb
  have hr := h.quote0
  have hdiv : 0 ≤ s.remQuote.tdiv i.priceLots := by
    rw [Int.tdiv_eq_ediv_of_nonneg hr]; exact Int.ediv_nonneg hr (by omega)
  have hdiv' := hm.quote
  have hle : matchQty i s ≤ s.remQuote.tdiv i.priceLots := by unfold matchQty; omega
  refine ⟨hp, by unfold matchQty; omega, by unfold matchQty; omega, by unfold matchQty; omega, within_of_quote hp hr hle, ?_⟩
  by_cases h1 : matchQty i s = s.remBase
  · exact .inl h1
  by_cases h2 : matchQty i s = i.leaf.quantity
  · exact .inr (.inl h2)
  right; right
  have h3 : matchQty i s = s.remQuote / i.priceLots := by
    rw [← Int.tdiv_eq_ediv_of_nonneg hr]
    unfold matchQty at h1 h2 ⊢; omega
  rw [h3]
  have e := Int.emod_add_mul_ediv s.remQuote i.priceLots
  have := Int.emod_lt_of_pos s.remQuote (show 0 < i.priceLots by omega)
  have ec : i.priceLots * (s.remQuote / i.priceLots) = s.remQuote / i.priceLots * i.priceLots := Int.mul_comm _ _
  omega

theorem LoopI.fillCommon {i : IterItem} {todo : List IterItem} {s : MatchSt} (hE : LoopEnv env E g0 maxQ)
    (h : LoopI env price E own g0 maxB maxQ B0 Q0 n (i :: todo) s) (hm : Matchable env price i s) {g : Ledger} {processed : Nat}
    (hf : Filled env i s g processed) {decr rb : Int}
    (hd0 : 0 ≤ decr) (hr0 : 0 ≤ rb)
    (hdl : decr ≤ matchQty i s * i.priceLots)
    (hns : env.hasOO = false → decr = 0)
    (hrb : rb = FillEvent.rebate s.g.market (mkFill env s.g.market.seqNum i (i.leaf.quantity - matchQty i s = 0) (matchQty i s)))
    (hreb : rb * 1000000 ≤ (matchQty i s * i.priceLots - decr) * g0.market.quoteLotSize * max (-g0.market.makerFee) 0) :
    LoopI env price E own g0 maxB maxQ B0 Q0 n todo
      { afterFill env i s g processed with decr := s.decr + decr, rebates := s.rebates + rb } := by
  have hbls : 0 < s.g.market.baseLotSize := by rw [h.frame.bls]; exact hE.bls
  have hqls : 0 < s.g.market.quoteLotSize := by rw [h.frame.qls]; exact hE.qls
  have hq := h.qtyOk hE hm
  have hi := h.items i (by simp)
  have hfr := h.fresh i (by simp)
  obtain ⟨oo, ho, _⟩ := h.head hE
  have hr := ho.rest _ _ _ _ rfl
  have hquote : matchQty i s * i.priceLots * s.g.market.quoteLotSize ≤ i64Max := by
    rw [h.frame.qls]
    refine Int.le_trans (Int.mul_le_mul_of_nonneg_right (Int.le_trans hq.leQuote h.quoteLe) ?_) hE.maxQ
    have := hE.qls; omega
  have hfo : FillOf s.g.market (mkFill env s.g.market.seqNum i (i.leaf.quantity - matchQty i s = 0) (matchQty i s)) i.comp i.leaf := by
    refine ⟨rfl, rfl, rfl, hq.qty, hq.leLeaf, ?_, hi.fixed, ?_, hquote⟩
    · simp only [mkFill, decide_eq_true_eq]; omega
    · intro hc
      obtain ⟨o, _, _, hp1, _, hv⟩ := hi.pegged hc
      refine ⟨hp1, ?_⟩
      intro hts
      have hs : env.order.side = .ask := hts
      rcases hv hm.valid with hl | hl
      · have := (hr.pegged hc).1; omega
      · rw [hs] at hl
        simp only [Side.isPriceBetter, Side.invert, decide_eq_false_iff_not, Int.not_lt] at hl
        show i.priceLots ≤ _
        omega
  obtain ⟨h1, h2, h3, h4⟩ := (h.headPerm hE).processFill hbls hqls hfo rfl hf.proc
  have ht := h.tail
  have hsum : ∀ f : FillEvent → Int, ((s.fills ++ [mkFill env s.g.market.seqNum i (i.leaf.quantity - matchQty i s = 0)
      (matchQty i s)]).map f).sum = (s.fills.map f).sum + f (mkFill env s.g.market.seqNum i (i.leaf.quantity - matchQty i s = 0)
      (matchQty i s)) := by intro f; simp
  have edB : loopB B0 env.order.side g0.market.baseLotSize (maxB - (s.remBase - matchQty i s)) =
      loopB B0 env.order.side g0.market.baseLotSize (maxB - s.remBase) +
        FillEvent.pendB s.g.market (mkFill env s.g.market.seqNum i (i.leaf.quantity - matchQty i s = 0) (matchQty i s)) := by
    have e1 : maxB - (s.remBase - matchQty i s) = (maxB - s.remBase) + matchQty i s := by omega
    rw [e1]
    have e2 : (mkFill env s.g.market.seqNum i (i.leaf.quantity - matchQty i s = 0) (matchQty i s)).takerSide = env.order.side := rfl
    unfold FillEvent.pendB loopB
    rw [e2, h.frame.bls]
    cases env.order.side <;> simp only [mkFill, Int.add_mul] <;> omega
  have edQ : loopQ Q0 env.order.side g0.market.quoteLotSize (maxQ - (s.remQuote - matchQty i s * i.priceLots)) (s.rebates + rb) =
      loopQ Q0 env.order.side g0.market.quoteLotSize (maxQ - s.remQuote) s.rebates +
        FillEvent.pendQ s.g.market (mkFill env s.g.market.seqNum i (i.leaf.quantity - matchQty i s = 0) (matchQty i s)) := by
    have e1 : maxQ - (s.remQuote - matchQty i s * i.priceLots) = (maxQ - s.remQuote) + matchQty i s * i.priceLots := by omega
    rw [e1]
    have e2 : (mkFill env s.g.market.seqNum i (i.leaf.quantity - matchQty i s = 0) (matchQty i s)).takerSide = env.order.side := rfl
    unfold FillEvent.pendQ loopQ
    rw [e2, ← hrb, h.frame.qls]
    cases env.order.side <;> simp only [mkFill, Int.add_mul] <;> omega
  have hl := hm.lim
  exact {
    frame := h.frame.trans h2
    seq := by show g.market.seqNum = _; rw [h3]; exact h.seq
    fits := by
      show Fits E (if _ then _ else _) (if _ then _ else _)
      by_cases hz : i.leaf.quantity - matchQty i s = 0
      · rw [if_pos hz, if_pos hz]; exact h.fits.delete hfr
      · rw [if_neg hz, if_neg hz]; exact h.fits.change (x := i.ref) hfr.mem _
    fresh := by
      intro j hj
      show Fresh E (if _ then _ else _) (if _ then _ else _) j.comp j.ref
      by_cases hz : i.leaf.quantity - matchQty i s = 0
      · rw [if_pos hz, if_pos hz]; exact h.freshDel hE j hj
      · rw [if_neg hz, if_neg hz]; exact h.freshChg _ j hj
    items := ht.items
    nodup := ht.nodup
    linv := by
      show LInv g (sideRests _ (virt E (if _ then _ else _) (if _ then _ else _)) ++ own)
        (loopB B0 env.order.side g0.market.baseLotSize (maxB - (s.remBase - matchQty i s)))
        (loopQ Q0 env.order.side g0.market.quoteLotSize (maxQ - (s.remQuote - matchQty i s * i.priceLots)) (s.rebates + rb)) _ _
      rw [edB, edQ]
      refine h1.perm ?_
      unfold restAfter
      by_cases hz : i.leaf.quantity - matchQty i s = 0
      · rw [if_pos hz, if_pos hz, if_pos (by simp [mkFill, hz])]
        exact List.Perm.refl _
      · rw [if_neg hz, if_neg hz, if_neg (by simp [mkFill, hz])]
        obtain ⟨R, r1, r2, r3⟩ := virt_change hE.entries hfr (i.leaf.quantity - matchQty i s)
        obtain ⟨d1, d2⟩ := virt_delete hE.entries hfr
        have hR : R.Perm (virt E s.changes (s.deletes ++ [(i.comp, i.leaf.key)]) i.comp) := (r1.symm.trans d1).cons_inv
        have hp := sideRests_cons (s := env.order.side.invert) (c := i.comp)
          (L := virt E (s.changes ++ [(i.handle, i.leaf.quantity - matchQty i s)]) s.deletes)
          (L' := virt E s.changes (s.deletes ++ [(i.comp, i.leaf.key)]))
          (r2.trans (hR.cons _)) (fun c' hc => (r3 c' hc).trans (d2 c' hc).symm)
        refine List.Perm.trans ?_ ((hp.append_right own).symm)
        exact List.Perm.refl _
    base0 := by show 0 ≤ s.remBase - matchQty i s; have := hq.leRem; omega
    baseLe := by show s.remBase - matchQty i s ≤ maxB; have := hq.qty; have := h.baseLe; omega
    quote0 := hf.rq.1
    quoteLe := by
      show s.remQuote - matchQty i s * i.priceLots ≤ maxQ
      have h5 : 0 ≤ matchQty i s * i.priceLots := Int.mul_nonneg (by have := hq.qty; omega) (by have := hq.price; omega)
      have := h.quoteLe; omega
    decr0 := by show 0 ≤ s.decr + decr; have := h.decr0; omega
    decrLe := by
      show s.decr + decr ≤ maxQ - (s.remQuote - matchQty i s * i.priceLots)
      have := h.decrLe; omega
    noSelf := by intro hx; show s.decr + decr = 0; rw [h.noSelf hx, hns hx]; rfl
    reb0 := by show 0 ≤ s.rebates + rb; have := h.reb0; omega
    reb := by
      show (s.rebates + rb) * 1000000 ≤ (maxQ - (s.remQuote - matchQty i s * i.priceLots) - (s.decr + decr)) * _ * _
      have e : maxQ - (s.remQuote - matchQty i s * i.priceLots) - (s.decr + decr) =
        (maxQ - s.remQuote - s.decr) + (matchQty i s * i.priceLots - decr) := by omega
      rw [e, Int.add_mul, Int.add_mul, Int.add_mul]
      have := h.reb; omega
    lim := by
      show s.limit - 1 + (s.fills ++ [_]).length = _
      have := h.lim
      rw [List.length_append]; simp only [List.length_cons, List.length_nil]; omega
    dropped := h.dropped
    post := by intro hx; rw [hm.notPost] at hx; cases hx
    target := h.target
    fills := by
      intro f hf'
      rcases List.mem_append.mp (show f ∈ s.fills ++ [_] from hf') with hf' | hf'
      · exact h.fills f hf'
      · simp only [List.mem_singleton] at hf'
        refine ⟨i, hi, hfr.mem, hm.valid, ?_, ?_, ?_, ?_, hm.within⟩
        · rw [hf']; simp only [mkFill, h.seq]
        · rw [hf']; exact hq.qty
        · rw [hf']; exact hq.leLeaf
        · rw [hf']; exact hfo.out
    outs := h.outs
    sumB := by
      show s.remBase - matchQty i s + _ = _
      rw [show ({ afterFill env i s g processed with decr := s.decr + decr, rebates := s.rebates + rb } : MatchSt).fills =
        s.fills ++ [mkFill env s.g.market.seqNum i (i.leaf.quantity - matchQty i s = 0) (matchQty i s)] from rfl, hsum]
      have := h.sumB
      simp only [mkFill]; omega
    sumQ := by
      show s.remQuote - matchQty i s * i.priceLots + _ = _
      rw [show ({ afterFill env i s g processed with decr := s.decr + decr, rebates := s.rebates + rb } : MatchSt).fills =
        s.fills ++ [mkFill env s.g.market.seqNum i (i.leaf.quantity - matchQty i s = 0) (matchQty i s)] from rfl, hsum]
      have := h.sumQ
      simp only [mkFill]; omega
    events := by
      obtain ⟨A, hA1, hA2, hA3⟩ := h.events
      simp only [afterFill]
      rcases h4 with h4 | h4
      · refine ⟨A, by rw [← hA1, ← h4], by simp only [List.length_append, List.length_cons, List.length_nil]; omega, ?_⟩
        intro e he
        rcases hA3 e he with ⟨f, hx, hy⟩ | hx
        · exact .inl ⟨f, by simp [hx], hy⟩
        · exact .inr hx
      · refine ⟨A ++ [_], by rw [← List.append_assoc, ← hA1]; exact h4, ?_, ?_⟩
        · simp only [List.length_append, List.length_cons, List.length_nil]; omega
        · intro e he
          rcases List.mem_append.mp he with he | he
          · rcases hA3 e he with ⟨f, hx, hy⟩ | hx
            · exact .inl ⟨f, by simp [hx], hy⟩
            · exact .inr hx
          · simp only [List.mem_singleton] at he
            exact .inl ⟨_, by simp, he⟩ }

theorem LoopI.step {i : IterItem} {todo : List IterItem} {s s' : MatchSt} (hE : LoopEnv env E g0 maxQ)
    (h : LoopI env price E own g0 maxB maxQ B0 Q0 n (i :: todo) s) (hs : StepOut env price i s true s') :
    LoopI env price E own g0 maxB maxQ B0 Q0 n todo s' := by
  cases hs with
  | drop g rb rq hs hd hp => exact h.drop hE hs hd hp
  | ignore rb rq hs hd => exact h.tail
  | cancelOwn a a' hm hself hb ha hc => exact h.cancelOwn hE hself ha hc
  | fillSelf g processed hm hself hb hdr hf =>
    have hq := h.qtyOk hE hm
    have h5 : 0 ≤ matchQty i s * i.priceLots := Int.mul_nonneg (by have := hq.qty; omega) (by have := hq.price; omega)
    have := h.fillCommon hE hm hf (decr := matchQty i s * i.priceLots) (rb := 0) h5 (Int.le_refl _) (Int.le_refl _)
      (fun hx => by rw [hself.1] at hx; cases hx)
      (by unfold FillEvent.rebate; rw [if_pos]; exact hself.2.symm)
      (by simp)
    rw [Int.add_zero] at this
    exact this
  | fill g processed rb hm hself hqr hrb hr hf =>
    have hq := h.qtyOk hE hm
    have h5 : 0 ≤ matchQty i s * i.priceLots := Int.mul_nonneg (by have := hq.qty; omega) (by have := hq.price; omega)
    have h6 : 0 ≤ matchQty i s * i.priceLots * s.g.market.quoteLotSize :=
      Int.mul_nonneg h5 (by rw [h.frame.qls]; have := hE.qls; omega)
    rw [asU64_eq h6 (by have := hqr.2; unfold i64Max at this; unfold u64Max; omega)] at hrb
    have hrb' := makerRebateFloor_inv h6 hrb
    have hne : i.leaf.owner ≠ env.owner := by
      intro he
      cases hoo : env.hasOO with
      | true => exact hself ⟨hoo, he.symm⟩
      | false =>
        have hn := hE.noTaker hoo
        obtain ⟨_, _, a, ha⟩ := h.head hE
        rw [he] at ha
        rw [Accts.get?_none_iff, ← h.frame.keys, ← Accts.get?_none_iff, ha] at hn
        cases hn
    have := h.fillCommon hE hm hf (decr := 0) (rb := rb) (Int.le_refl _)
      (by rw [hrb']; exact floorRebate_nonneg h6) h5 (fun _ => rfl)
      (by unfold FillEvent.rebate; rw [if_neg (by exact hne)]; exact hrb')
      (by
        rw [Int.sub_zero, hrb', h.frame.maker, ← h.frame.qls]
        exact floorRebate_mul_le _ _)
    rw [Int.add_zero] at this
    exact this

/-- Invariant when the loop ends. -/
theorem LoopI.stop {i : IterItem} {todo : List IterItem} {s s' : MatchSt}
    (h : LoopI env price E own g0 maxB maxQ B0 Q0 n (i :: todo) s) (hs : StepOut env price i s false s') :
    LoopI env price E own g0 maxB maxQ B0 Q0 n [] s' := by
  have h0 : LoopI env price E own g0 maxB maxQ B0 Q0 n [] s :=
    { h with fresh := by simp, items := by simp, nodup := List.nodup_nil }
  cases hs with
  | done => exact h0
  | stop => exact h0
  | block rb rq hs hw hr => exact { h0 with target := .inr rfl }

theorem LoopI.fold {todo : List IterItem} {s s' : MatchSt} (hE : LoopEnv env E g0 maxQ)
    (h : LoopI env price E own g0 maxB maxQ B0 Q0 n todo s) (hf : foldItems env price todo s = .ok s') :
    LoopI env price E own g0 maxB maxQ B0 Q0 n [] s' :=
  foldItems_induct (I := fun _ todo s => LoopI env price E own g0 maxB maxQ B0 Q0 n todo s)
    (J := fun s => LoopI env price E own g0 maxB maxQ B0 Q0 n [] s)
    (fun _ _ h => h) (fun _ _ _ _ _ h hs => h.step hE hs) (fun _ _ _ _ _ h hs => h.stop hs) todo [] s s' h hf

end
end OB
