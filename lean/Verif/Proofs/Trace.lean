import Verif.Proofs.Loop
/-! What the matching loop did with each order it visited. -/
namespace OB

inductive Fate
  | fill (q : Int) (self : Bool)
  | cancel
  | drop
  | ignore

/-- One visited order with the amounts left on arrival. -/
structure Visit where
  item : IterItem
  fate : Fate
  rb : Int
  rq : Int

namespace Visit

def qty (v : Visit) : Int := match v.fate with | .fill q _ => q | _ => 0
def fill? (env : Env) (seq : Nat) (v : Visit) : Option FillEvent :=
  match v.fate with | .fill q _ => some (mkFill env seq v.item (decide (v.item.leaf.quantity - q = 0)) q) | _ => none
def change? (v : Visit) : Option (Nat × Int) :=
  match v.fate with
  | .fill q _ => if v.item.leaf.quantity - q = 0 then none else some (v.item.handle, v.item.leaf.quantity - q)
  | _ => none
def delete? (v : Visit) : Option (Comp × Nat) :=
  match v.fate with
  | .fill q _ => if v.item.leaf.quantity - q = 0 then some (v.item.comp, v.item.leaf.key) else none
  | .cancel => some (v.item.comp, v.item.leaf.key)
  | .drop => some (v.item.comp, v.item.leaf.key)
  | .ignore => none
def out? (v : Visit) : Option LeafNode := match v.fate with | .drop => some v.item.leaf | _ => none
def selfQ (v : Visit) : Int := match v.fate with | .fill q true => q * v.item.priceLots | _ => 0
def rebate (m : Market) (v : Visit) : Int :=
  match v.fate with | .fill q false => floorRebate m.makerFee (q * v.item.priceLots * m.quoteLotSize) | _ => 0

end Visit

/-- What is known of one visit. -/
structure VisitOk (env : Env) (price : Int) (v : Visit) : Prop where
  rb : 1 ≤ v.rb
  rq : 1 ≤ v.rq
  item : ItemOk env.order.side.invert env.nowTs env.oracle v.item
  fill : ∀ q sf, v.fate = .fill q sf → v.item.state = .valid ∧ env.order.side.isPriceWithinLimit v.item.priceLots price = true ∧
    env.order.isPostOnly = false ∧ 1 ≤ v.item.priceLots ∧ 1 ≤ q ∧ q ≤ v.rb ∧ q ≤ v.item.leaf.quantity ∧ q * v.item.priceLots ≤ v.rq ∧
    (q = v.rb ∨ q = v.item.leaf.quantity ∨ v.rq - q * v.item.priceLots < v.item.priceLots) ∧
    (sf = true → v.item.leaf.owner = env.owner ∧ env.hasOO = true ∧ env.order.selfTradeBehavior = .decrementTake) ∧
    (sf = false → v.item.leaf.owner ≠ env.owner)
  cancel : v.fate = .cancel → v.item.state = .valid ∧ env.order.side.isPriceWithinLimit v.item.priceLots price = true ∧
    env.order.isPostOnly = false ∧ v.item.leaf.owner = env.owner ∧ env.hasOO = true ∧
    env.order.selfTradeBehavior = .cancelProvide
  drop : v.fate = .drop → v.item.state ≠ .valid
  ignore : v.fate = .ignore → v.item.state ≠ .valid

structure TraceI (env : Env) (price : Int) (m : Market) (its : List IterItem) (tr : List Visit) (todo : List IterItem)
    (s : MatchSt) : Prop where
  split : tr.map (·.item) ++ todo = its
  fills : s.fills = tr.filterMap (Visit.fill? env m.seqNum)
  changes : s.changes = tr.filterMap Visit.change?
  deletes : s.deletes = tr.filterMap Visit.delete?
  outs : s.outs.map (fun e => (e.owner, e.ownerSlot, e.quantity)) =
    (tr.filterMap Visit.out?).map (fun l => (l.owner, l.ownerSlot, l.quantity))
  decr : s.decr = (tr.map Visit.selfQ).sum
  rebates : s.rebates = (tr.map (Visit.rebate m)).sum
  ok : ∀ v ∈ tr, VisitOk env price v
  pair : tr.Pairwise (fun v w => w.rb ≤ v.rb - v.qty ∧ w.rq ≤ v.rq - v.qty * v.item.priceLots)
  rem : ∀ v ∈ tr, s.remBase ≤ v.rb - v.qty ∧ s.remQuote ≤ v.rq - v.qty * v.item.priceLots
  target : s.postTarget = env.order.postTarget

/-- How the loop ended. -/
inductive LoopEnd (env : Env) (price : Int) (todo : List IterItem) (s : MatchSt) : Prop
  | all (h : todo = []) (ht : s.postTarget = env.order.postTarget)
  | spent (h : s.remBase = 0 ∨ s.remQuote = 0) (ht : s.postTarget = env.order.postTarget)
  | price (i : IterItem) (rest : List IterItem) (h : todo = i :: rest) (hv : i.state = .valid)
      (hw : env.order.side.isPriceWithinLimit i.priceLots price = false) (ht : s.postTarget = env.order.postTarget)
  | block (i : IterItem) (rest : List IterItem) (h : todo = i :: rest) (hv : i.state = .valid)
      (hw : env.order.side.isPriceWithinLimit i.priceLots price = true) (rb : s.remBase ≠ 0) (rq : s.remQuote ≠ 0)
      (ht : s.postTarget = none)
      (hr : env.order.isPostOnly = true ∨ s.limit = 0 ∨ (i.priceLots ≠ 0 ∧ s.remQuote.tdiv i.priceLots = 0))

/-- The whole loop. -/
structure LoopTrace (env : Env) (price : Int) (m : Market) (its : List IterItem) (s : MatchSt) (tr : List Visit)
    (todo : List IterItem) : Prop where
  split : tr.map (·.item) ++ todo = its
  fills : s.fills = tr.filterMap (Visit.fill? env m.seqNum)
  changes : s.changes = tr.filterMap Visit.change?
  deletes : s.deletes = tr.filterMap Visit.delete?
  outs : s.outs.map (fun e => (e.owner, e.ownerSlot, e.quantity)) =
    (tr.filterMap Visit.out?).map (fun l => (l.owner, l.ownerSlot, l.quantity))
  decr : s.decr = (tr.map Visit.selfQ).sum
  rebates : s.rebates = (tr.map (Visit.rebate m)).sum
  ok : ∀ v ∈ tr, VisitOk env price v
  pair : tr.Pairwise (fun v w => w.rb ≤ v.rb - v.qty ∧ w.rq ≤ v.rq - v.qty * v.item.priceLots)
  rem : ∀ v ∈ tr, s.remBase ≤ v.rb - v.qty ∧ s.remQuote ≤ v.rq - v.qty * v.item.priceLots
  ending : LoopEnd env price todo s

section
variable {env : Env} {price : Int} {E : Comp → HL} {own : Rests} {g0 : Ledger} {maxB maxQ B0 Q0 : Int} {n : Nat}

theorem filterMap_snoc {α β : Type} (f : α → Option β) (l : List α) (a : α) :
    (l ++ [a]).filterMap f = l.filterMap f ++ (f a).toList := by
  rw [List.filterMap_append]
  congr 1

theorem map_sum_snoc {α : Type} (f : α → Int) (l : List α) (a : α) : ((l ++ [a]).map f).sum = (l.map f).sum + f a := by simp

theorem TraceI.snoc {its : List IterItem} {tr : List Visit} {i : IterItem} {todo : List IterItem} {s s' : MatchSt} {m : Market}
    (h : TraceI env price m its tr (i :: todo) s) {ft : Fate} (v : Visit) (hv : v = ⟨i, ft, s.remBase, s.remQuote⟩)
    (fills : s'.fills = s.fills ++ (v.fill? env m.seqNum).toList)
    (changes : s'.changes = s.changes ++ v.change?.toList)
    (deletes : s'.deletes = s.deletes ++ v.delete?.toList)
    (outs : s'.outs.map (fun e => (e.owner, e.ownerSlot, e.quantity)) = s.outs.map (fun e => (e.owner, e.ownerSlot, e.quantity)) ++
      v.out?.toList.map (fun l => (l.owner, l.ownerSlot, l.quantity)))
    (decr : s'.decr = s.decr + v.selfQ)
    (rebates : s'.rebates = s.rebates + v.rebate m)
    (ok : VisitOk env price v)
    (rb : s'.remBase = s.remBase - v.qty) (rq : s'.remQuote = s.remQuote - v.qty * v.item.priceLots)
    (q0 : 0 ≤ v.qty) (p0 : 0 ≤ v.qty * v.item.priceLots)
    (target : s'.postTarget = s.postTarget) : TraceI env price m its (tr ++ [v]) todo s' where
  split := by rw [← h.split, hv]; simp
  fills := by rw [fills, h.fills, filterMap_snoc]
  changes := by rw [changes, h.changes, filterMap_snoc]
  deletes := by rw [deletes, h.deletes, filterMap_snoc]
  outs := by rw [outs, h.outs, filterMap_snoc, List.map_append]
  decr := by rw [decr, h.decr, map_sum_snoc]
  rebates := by rw [rebates, h.rebates, map_sum_snoc]
  ok := by
    intro w hw
    rcases List.mem_append.mp hw with hw | hw
    · exact h.ok w hw
    · simp only [List.mem_singleton] at hw; rw [hw]; exact ok
  pair := by
    rw [List.pairwise_append]
    refine ⟨h.pair, by simp, ?_⟩
    intro a ha b hb
    simp only [List.mem_singleton] at hb
    rw [hb, hv]
    exact h.rem a ha
  rem := by
    intro w hw
    rw [rb, rq]
    rcases List.mem_append.mp hw with hw | hw
    · have := h.rem w hw; omega
    · simp only [List.mem_singleton] at hw; rw [hw]
      have e1 : v.rb = s.remBase := by rw [hv]
      have e2 : v.rq = s.remQuote := by rw [hv]
      rw [e1, e2]; omega
  target := target.trans h.target

theorem TraceI.step {its : List IterItem} {tr : List Visit} {i : IterItem} {todo : List IterItem} {s s' : MatchSt}
    (hE : LoopEnv env E g0 maxQ)
    (hl : LoopI env price E own g0 maxB maxQ B0 Q0 n (i :: todo) s)
    (h : TraceI env price g0.market its tr (i :: todo) s) (hs : StepOut env price i s true s') :
    ∃ v, TraceI env price g0.market its (tr ++ [v]) todo s' := by
  have hi := hl.items i (by simp)
  have hb0 := hl.base0
  have hq0 := hl.quote0
  cases hs with
  | drop g rb rq hs hd hp =>
    refine ⟨⟨i, .drop, s.remBase, s.remQuote⟩, h.snoc _ rfl ?_ ?_ ?_ ?_ ?_ ?_ ?_ ?_ ?_ ?_ ?_ rfl⟩
    · simp [Visit.fill?]
    · simp [Visit.change?]
    · simp [Visit.delete?]
    · simp [Visit.out?, dropEvent]
    · simp [Visit.selfQ]
    · simp [Visit.rebate]
    · exact ⟨by simp only; omega, by simp only; omega, hi, (fun _ _ hx => nomatch hx), (fun hx => nomatch hx), fun _ => hs,
        (fun hx => nomatch hx)⟩
    · simp [Visit.qty]
    · simp [Visit.qty]
    · simp [Visit.qty]
    · simp [Visit.qty]
  | ignore rb rq hs hd =>
    refine ⟨⟨i, .ignore, s.remBase, s.remQuote⟩, h.snoc _ rfl ?_ ?_ ?_ ?_ ?_ ?_ ?_ ?_ ?_ ?_ ?_ rfl⟩
    · simp [Visit.fill?]
    · simp [Visit.change?]
    · simp [Visit.delete?]
    · simp [Visit.out?]
    · simp [Visit.selfQ]
    · simp [Visit.rebate]
    · exact ⟨by simp only; omega, by simp only; omega, hi, (fun _ _ hx => nomatch hx), (fun hx => nomatch hx), (fun hx => nomatch hx),
        fun _ => hs⟩
    · simp [Visit.qty]
    · simp [Visit.qty]
    · simp [Visit.qty]
    · simp [Visit.qty]
  | cancelOwn a a' hm hself hb ha hc =>
    have hrb := hm.rb
    have hrq := hm.rq
    refine ⟨⟨i, .cancel, s.remBase, s.remQuote⟩, h.snoc _ rfl ?_ ?_ ?_ ?_ ?_ ?_ ?_ ?_ ?_ ?_ ?_ rfl⟩
    · simp [Visit.fill?]
    · simp [Visit.change?]
    · simp [Visit.delete?]
    · simp [Visit.out?]
    · simp [Visit.selfQ]
    · simp [Visit.rebate]
    · exact ⟨by simp only; omega, by simp only; omega, hi, (fun _ _ hx => nomatch hx),
        fun _ => ⟨hm.valid, hm.within, hm.notPost, hself.2.symm, hself.1, hb⟩, (fun hx => nomatch hx), (fun hx => nomatch hx)⟩
    · simp [Visit.qty]
    · simp [Visit.qty]
    · simp [Visit.qty]
    · simp [Visit.qty]
  | fillSelf g processed hm hself hb hdr hf =>
    have hrb := hm.rb
    have hrq := hm.rq
    have hq := hl.qtyOk hE hm
    have q1 := hq.qty
    have q5 : 0 ≤ matchQty i s * i.priceLots := Int.mul_nonneg (by have := hq.qty; omega) (by have := hq.price; omega)
    refine ⟨⟨i, .fill (matchQty i s) true, s.remBase, s.remQuote⟩, h.snoc _ rfl ?_ ?_ ?_ ?_ ?_ ?_ ?_ ?_ ?_ ?_ ?_ rfl⟩
    · simp [Visit.fill?, afterFill, hl.seq]
    · simp only [Visit.change?, afterFill]; split <;> simp
    · simp only [Visit.delete?, afterFill]; split <;> simp
    · simp [Visit.out?, afterFill]
    · simp [Visit.selfQ]
    · simp [Visit.rebate, afterFill]
    · refine ⟨by simp only; omega, by simp only; omega, hi, ?_, (fun hx => nomatch hx), (fun hx => nomatch hx), (fun hx => nomatch hx)⟩
      intro q sf hx
      injection hx with e1 e2
      subst e1; subst e2
      exact ⟨hm.valid, hm.within, hm.notPost, hq.price, hq.qty, hq.leRem, hq.leLeaf, hq.leQuote, hq.max,
        fun _ => ⟨hself.2.symm, hself.1, hb⟩, fun hx => nomatch hx⟩
    · rfl
    · rfl
    · show 0 ≤ matchQty i s; omega
    · exact q5
  | fill g processed rb hm hself hqr hrb hr hf =>
    have hrb0 := hm.rb
    have hrq := hm.rq
    have hq := hl.qtyOk hE hm
    have q1 := hq.qty
    have q5 : 0 ≤ matchQty i s * i.priceLots := Int.mul_nonneg (by have := hq.qty; omega) (by have := hq.price; omega)
    have h6 : 0 ≤ matchQty i s * i.priceLots * s.g.market.quoteLotSize :=
      Int.mul_nonneg q5 (by rw [hl.frame.qls]; have := hE.qls; omega)
    rw [asU64_eq h6 (by have := hqr.2; unfold i64Max at this; unfold u64Max; omega)] at hrb
    have hrb' := makerRebateFloor_inv h6 hrb
    have hne : i.leaf.owner ≠ env.owner := by
      intro he
      cases hoo : env.hasOO with
      | true => exact hself ⟨hoo, he.symm⟩
      | false =>
        have hn := hE.noTaker hoo
        obtain ⟨_, _, a, ha⟩ := hl.head hE
        rw [he] at ha
        rw [Accts.get?_none_iff, ← hl.frame.keys, ← Accts.get?_none_iff, ha] at hn
        cases hn
    refine ⟨⟨i, .fill (matchQty i s) false, s.remBase, s.remQuote⟩, h.snoc _ rfl ?_ ?_ ?_ ?_ ?_ ?_ ?_ ?_ ?_ ?_ ?_ rfl⟩
    · simp [Visit.fill?, afterFill, hl.seq]
    · simp only [Visit.change?, afterFill]; split <;> simp
    · simp only [Visit.delete?, afterFill]; split <;> simp
    · simp [Visit.out?, afterFill]
    · simp [Visit.selfQ, afterFill]
    · show s.rebates + rb = s.rebates + floorRebate _ _
      rw [hrb', hl.frame.maker, hl.frame.qls]
    · refine ⟨by simp only; omega, by simp only; omega, hi, ?_, (fun hx => nomatch hx), (fun hx => nomatch hx), (fun hx => nomatch hx)⟩
      intro q sf hx
      injection hx with e1 e2
      subst e1; subst e2
      exact ⟨hm.valid, hm.within, hm.notPost, hq.price, hq.qty, hq.leRem, hq.leLeaf, hq.leQuote, hq.max,
        (fun hx => nomatch hx), fun _ => hne⟩
    · rfl
    · rfl
    · show 0 ≤ matchQty i s; omega
    · exact q5

theorem TraceI.trace {its : List IterItem} {tr : List Visit} {todo : List IterItem} {s : MatchSt} {m : Market}
    (h : TraceI env price m its tr todo s) (he : LoopEnd env price todo s) : LoopTrace env price m its s tr todo :=
  ⟨h.split, h.fills, h.changes, h.deletes, h.outs, h.decr, h.rebates, h.ok, h.pair, h.rem, he⟩

theorem LoopI.trace {its : List IterItem} {s s' : MatchSt} (hE : LoopEnv env E g0 maxQ)
    (hl : LoopI env price E own g0 maxB maxQ B0 Q0 n its s) (h0 : TraceI env price g0.market its [] its s)
    (hf : foldItems env price its s = .ok s') : ∃ tr todo, LoopTrace env price g0.market its s' tr todo := by
  refine foldItems_induct
    (I := fun _ todo s => LoopI env price E own g0 maxB maxQ B0 Q0 n todo s ∧ ∃ tr, TraceI env price g0.market its tr todo s)
    (J := fun s' => ∃ tr todo, LoopTrace env price g0.market its s' tr todo) ?_ ?_ ?_ its [] s s' ⟨hl, [], h0⟩ hf
  · rintro _ s ⟨_, tr, ht⟩
    exact ⟨tr, [], ht.trace (.all rfl ht.target)⟩
  · rintro _ i todo s s' ⟨hl, tr, ht⟩ hs
    obtain ⟨v, hv⟩ := ht.step hE hl hs
    exact ⟨hl.step hE hs, _, hv⟩
  · rintro _ i todo s s' ⟨hl, tr, ht⟩ hs
    cases hs with
    | done h => exact ⟨tr, i :: todo, ht.trace (.spent h ht.target)⟩
    | stop rb rq hs hw => exact ⟨tr, i :: todo, ht.trace (.price i todo rfl hs hw ht.target)⟩
    | block rb rq hs hw hr =>
      have ht' : LoopTrace env price g0.market its { s with postTarget := none } tr (i :: todo) :=
        ⟨ht.split, ht.fills, ht.changes, ht.deletes, ht.outs, ht.decr, ht.rebates, ht.ok, ht.pair, ht.rem,
          .block i todo rfl hs hw rb rq rfl hr⟩
      exact ⟨tr, i :: todo, ht'⟩

end

end OB
