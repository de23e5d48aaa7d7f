import Verif.Spec.Named
import Verif.Proofs.LogsStep
import Verif.Proofs.Client
/-! Which events of an order are queued. -/
namespace OB
open Spec

theorem fillsIn_append (a b : List Event) : fillsIn (a ++ b) = fillsIn a ++ fillsIn b := by simp [fillsIn]
theorem outsIn_append (a b : List Event) : outsIn (a ++ b) = outsIn a ++ outsIn b := by simp [outsIn]

theorem left_nil (ks : List Pubkey) (n : Nat) : left ks n [] = [] := by cases n <;> rfl

/-- From `g` to `g'` the fills `fs` and the removed orders `os` have been handled; of the fills that may be delivered at once, `n` were
left before and `n'` are left after. -/
structure Adds (env : Env) (g : Ledger) (n : Nat) (fs : List FillEvent) (os : List OutEvent) (g' : Ledger) (n' : Nat) : Prop where
  heap : ∃ q, HeapRep g'.heap q
  queue : ∃ A, g'.heap.events = g.heap.events ++ A ∧ outsIn A = os.filter (fun o => decide (absent env o)) ∧
    ∀ more, left env.rem n (fs ++ more) = fillsIn A ++ left env.rem n' more

theorem Adds.same {env : Env} {g g' : Ledger} {n : Nat} (hh : ∃ q, HeapRep g.heap q) (e : g'.heap = g.heap) : Adds env g n [] [] g' n :=
  ⟨by rw [e]; exact hh, [], by rw [e]; simp, rfl, fun _ => rfl⟩

theorem Adds.trans {env : Env} {g g1 g2 : Ledger} {n n1 n2 : Nat} {f1 f2 : List FillEvent} {o1 o2 : List OutEvent}
    (h1 : Adds env g n f1 o1 g1 n1) (h2 : Adds env g1 n1 f2 o2 g2 n2) : Adds env g n (f1 ++ f2) (o1 ++ o2) g2 n2 := by
  obtain ⟨A, a1, a2, a3⟩ := h1.queue
  obtain ⟨B, b1, b2, b3⟩ := h2.queue
  refine ⟨h2.heap, A ++ B, by rw [b1, a1, List.append_assoc], ?_, fun more => ?_⟩
  · rw [outsIn_append, a2, b2, List.filter_append]
  · rw [List.append_assoc, a3, b3, fillsIn_append, List.append_assoc]

theorem adds_out {env : Env} {ev : OutEvent} {b : Bool} {g g' : Ledger} {n : Nat} (hb : b = env.hasOO) (hh : ∃ q, HeapRep g.heap q)
    (h : processOutEvent ev b env.owner env.rem g = .ok g') : Adds env g n [] [ev] g' n := by
  subst hb
  unfold processOutEvent at h
  have hsame : ∀ {c : Prop} {k : Pubkey} {a : OOA}, ¬ absent env ev → Adds env g n [] [ev] { g with accts := g.accts.set k a } n := by
    intro _ k a hn
    refine ⟨hh, [], by simp, ?_, fun _ => rfl⟩
    rw [List.filter_cons, if_neg (by simpa using hn)]; rfl
  split at h
  · rename_i hc
    simp only [bind_ok, pure_ok] at h
    obtain ⟨_, _, _, _, rfl⟩ := h
    exact hsame (c := True) (fun hx => hx.2 hc)
  · rename_i hc
    split at h
    · rename_i hm
      simp only [bind_ok, pure_ok] at h
      obtain ⟨_, _, _, _, rfl⟩ := h
      exact hsame (c := True) (fun hx => hx.1 hm)
    · rename_i hm
      simp only [bind_ok, pure_ok] at h
      obtain ⟨h', hp, rfl⟩ := h
      obtain ⟨q, hq⟩ := hh
      obtain ⟨k1, k2⟩ := queued_push hq hp
      refine ⟨k1, [.out ev], k2, ?_, fun _ => rfl⟩
      have hx : absent env ev := ⟨hm, hc⟩
      rw [List.filter_cons, if_pos (decide_eq_true hx)]; rfl

theorem adds_fill {env : Env} {ev : FillEvent} {g g' : Ledger} {p p' : Nat} (hh : ∃ q, HeapRep g.heap q)
    (h : processFillEvent ev env.hasOO env.owner env.rem g p = .ok (g', p')) :
    Adds env g (15 - p) [ev] [] g' (15 - p') := by
  unfold processFillEvent at h
  split at h
  · rename_i hc
    split at h
    · cases h
    · simp only [bind_ok, pure_ok] at h
      obtain ⟨a, _, ⟨a', m'⟩, _, h⟩ := h
      cases h
      have h15 : p < 15 := hc.1
      refine ⟨hh, [], by simp, rfl, fun more => ?_⟩
      obtain ⟨k, hk⟩ : ∃ k, 15 - p = k + 1 := ⟨14 - p, by omega⟩
      rw [hk, show 15 - (p + 1) = k by omega]
      show left env.rem (k + 1) (ev :: more) = _
      rw [left, if_pos hc.2]; rfl
  · rename_i hc
    simp only [bind_ok, pure_ok] at h
    obtain ⟨h', hp, h⟩ := h
    cases h
    obtain ⟨q, hq⟩ := hh
    obtain ⟨k1, k2⟩ := queued_push hq hp
    refine ⟨k1, [.fill ev], k2, rfl, fun more => ?_⟩
    show left env.rem _ (ev :: more) = ev :: left env.rem _ more
    cases hk : 15 - p with
    | zero => rw [left, left]
    | succ k =>
      rw [left, if_neg]
      intro hm
      exact hc ⟨by show p < 15; omega, hm⟩

theorem adds_step {env : Env} {price : Int} {i : IterItem} {s s' : MatchSt} {go : Bool} (hh : ∃ q, HeapRep s.g.heap q)
    (h : StepOut env price i s go s') :
    ∃ fs os, s'.fills = s.fills ++ fs ∧ s'.outs = s.outs ++ os ∧ Adds env s.g (15 - s.processed) fs os s'.g (15 - s'.processed) := by
  cases h with
  | done hz => exact ⟨[], [], by simp, by simp, .same hh rfl⟩
  | drop g rb rq hst hd hp => exact ⟨[], [_], by simp, rfl, adds_out rfl hh hp⟩
  | ignore rb rq hst hd => exact ⟨[], [], by simp, by simp, .same hh rfl⟩
  | stop rb rq hst hw => exact ⟨[], [], by simp, by simp, .same hh rfl⟩
  | block rb rq hst hw hr => exact ⟨[], [], by simp, by simp, .same hh rfl⟩
  | cancelOwn a a' hm hself hb ha hc => exact ⟨[], [], by simp, by simp, .same hh rfl⟩
  | fillSelf g p hm hself hb hdr hf => exact ⟨[_], [], rfl, by simp [afterFill], adds_fill hh hf.proc⟩
  | fill g p rb hm hself hq hrb hr hf => exact ⟨[_], [], rfl, by simp [afterFill], adds_fill hh hf.proc⟩

theorem adds_loop {env : Env} {price : Int} {t : Nodes} {n : Nat} {it : SideIter} {s s' : MatchSt} (hh : ∃ q, HeapRep s.g.heap q)
    (h : matchLoop env price t n it s = .ok s') :
    ∃ fs os, s'.fills = s.fills ++ fs ∧ s'.outs = s.outs ++ os ∧ Adds env s.g (15 - s.processed) fs os s'.g (15 - s'.processed) := by
  refine matchLoop_induct (I := fun x => ∃ fs os, x.fills = s.fills ++ fs ∧ x.outs = s.outs ++ os ∧
      Adds env s.g (15 - s.processed) fs os x.g (15 - x.processed)) (fun _ h => h) ?_ ?_ n it s s' ⟨[], [], by simp, by simp, .same hh rfl⟩ h
  all_goals
    rintro i x x' ⟨fs, os, h1, h2, h3⟩ hs
    obtain ⟨fs', os', k1, k2, k3⟩ := adds_step h3.heap hs
    exact ⟨fs ++ fs', os ++ os', by rw [k1, h1, List.append_assoc], by rw [k2, h2, List.append_assoc], h3.trans k3⟩

theorem adds_room {env : Env} {p : Int} {c : Comp} {b b' : BookSide} {g g' : Ledger} {outs : List OutEvent} {n : Nat}
    (hoo : env.hasOO = true) (hh : ∃ q, HeapRep g.heap q) (h : makeRoom env p c b g = .ok (b', g', outs)) : Adds env g n [] outs g' n := by
  unfold makeRoom at h
  have key : ∀ g1 b1 o1, Adds env g n [] o1 g1 n → (if b1.isFull = true then do
      let (l, worstPrice, b2) ← unwrapR (← b1.removeWorst env.nowTs env.oracle)
      req (env.order.side.isPriceBetter p worstPrice = true) .someError
      let ev : OutEvent := { side := env.order.side, ownerSlot := l.ownerSlot, timestamp := env.nowTs, seqNum := g1.heap.seqNum, owner := l.owner, quantity := l.quantity }
      let g2 ← processOutEvent ev true env.owner env.rem g1
      return (b2, g2, o1 ++ [ev])
    else return (b1, g1, o1) : R (BookSide × Ledger × List OutEvent)) = .ok (b', g', outs) → Adds env g n [] outs g' n := by
    intro g1 b1 o1 q1 h
    split at h
    · simp only [bind_ok, pure_ok] at h
      obtain ⟨_, _, x, _, _, _, g2, h2, h⟩ := h
      cases h
      exact q1.trans (adds_out hoo.symm q1.heap h2)
    · cases h; exact q1
  simp only [bind_ok] at h
  obtain ⟨x, hx, h⟩ := h
  cases x with
  | none =>
    obtain ⟨y, hy, h⟩ := h
    cases hy
    exact key g b [] (.same hh rfl) h
  | some x =>
    simp only [bind_ok, pure_ok] at h
    obtain ⟨y, ⟨g2, h2, hy⟩, h⟩ := h
    cases hy
    exact key g2 _ _ (adds_out hoo.symm hh h2) h

theorem adds_post {env : Env} {id : Nat} {pl p qty : Int} {c : Comp} {b b' : BookSide} {g g' : Ledger} {x y z : Int} {outs : List OutEvent}
    {n : Nat} (hh : ∃ q, HeapRep g.heap q) (h : postOrder env id pl p qty c b g = .ok (b', g', x, y, z, outs)) : Adds env g n [] outs g' n := by
  unfold postOrder at h
  simp only [assertR, bind_ok, ckI64_ok, req_ok, pure_ok, Accts.get_ok] at h
  obtain ⟨_, _, _, _, _, _, _, _, _, hoo, a, ha, ⟨mf, a1⟩, h1, ⟨b1, g2, o⟩, h2, a2, ha2, slot, _, ⟨_, _, b2⟩, _, a3, h3, h⟩ := h
  cases h
  have hr : Adds env { g with accts := g.accts.set env.owner a1 } n [] o g2 n := adds_room hoo hh h2
  exact ⟨hr.heap, hr.queue⟩

/-- All events of a call of the matching engine. -/
theorem adds_call {env : Env} {book book' : Book} {g g' : Ledger} {r : OrderResult} (C : CallRun env book g r book' g')
    (hh : ∃ q, HeapRep g.heap q) : ∃ n, Adds env g 15 r.fills r.outs g' n := by
  obtain ⟨fs, os, h1, h2, h3⟩ := adds_loop (s := startSt env g C.R.maxQ) hh C.R.loop
  have h4 : Adds env C.R.s.g (15 - C.R.s.processed) [] [] C.R.g1 (15 - C.R.s.processed) := .same h3.heap C.P.taker.heap
  have h5 := h3.trans h4
  rw [show (startSt env g C.R.maxQ).fills = [] from rfl] at h1
  rw [show (startSt env g C.R.maxQ).outs = [] from rfl] at h2
  simp only [List.append_nil, List.nil_append] at h1 h2 h5
  have h6 : Adds env g 15 fs os C.R.g1 (15 - C.R.s.processed) := ⟨h5.heap, h5.queue⟩
  rcases C.R.post with ⟨_, _, _, _, _, ho, _, e⟩ | ⟨c, own, outs, _, _, hp, ho, _⟩
  · rw [C.R.fills, h1, ho, h2, e]
    exact ⟨_, h6⟩
  · have := h6.trans (adds_post h5.heap hp)
    rw [C.R.fills, h1, ho, h2]
    rw [List.append_nil] at this
    exact ⟨_, this⟩

theorem engine_rep {book : Book} {g : Ledger} (h : EngineState book g) : ∃ q, HeapRep g.heap q := by
  induction h with
  | reachable s h => exact rep_of h
  | next env book book' g g' r h hc hr ih =>
    obtain ⟨C⟩ := callRun ⟨h, hc, hr⟩
    obtain ⟨n, hA⟩ := adds_call C ih
    exact hA.heap

/-! ### lists -/

theorem events_split (es : List Event) : es.length = (fillsIn es).length + (outsIn es).length := by
  induction es with
  | nil => rfl
  | cons e es ih =>
    cases e with
    | fill f =>
      rw [show fillsIn (.fill f :: es) = f :: fillsIn es from rfl, show outsIn (.fill f :: es) = outsIn es from rfl]
      simp only [List.length_cons]; omega
    | out o =>
      rw [show fillsIn (.out o :: es) = fillsIn es from rfl, show outsIn (.out o :: es) = o :: outsIn es from rfl]
      simp only [List.length_cons]; omega

theorem fills_only {es : List Event} (h : outsIn es = []) : es = (fillsIn es).map .fill := by
  induction es with
  | nil => rfl
  | cons e es ih =>
    cases e with
    | fill f =>
      rw [show fillsIn (.fill f :: es) = f :: fillsIn es from rfl, List.map_cons, ← ih h]
    | out o => cases h

theorem left_sublist (ks : List Pubkey) (n : Nat) (fs : List FillEvent) : (left ks n fs).Sublist fs := by
  induction fs generalizing n with
  | nil => rw [left_nil]
  | cons f fs ih =>
    cases n with
    | zero => rw [left]
    | succ n =>
      rw [left]
      split
      · exact (ih n).trans (List.sublist_cons_self f fs)
      · exact (ih (n + 1)).cons_cons f

theorem left_named {ks : List Pubkey} (n : Nat) (fs : List FillEvent) (h : ∀ f ∈ fs.take n, f.maker ∈ ks) : left ks n fs = fs.drop n := by
  induction fs generalizing n with
  | nil => rw [left_nil]; simp
  | cons f fs ih =>
    cases n with
    | zero => rfl
    | succ n =>
      rw [left, if_pos (h f (by simp)), List.drop_succ_cons]
      exact ih n (fun x hx => h x (by simp [hx]))

theorem left_prefix {ks : List Pubkey} (n m : Nat) (fs : List FillEvent) (h : ∀ f ∈ fs.take m, f.maker ∈ ks) (hm : m ≤ n) :
    (left ks n fs).Sublist (fs.drop m) := by
  induction fs generalizing n m with
  | nil => rw [left_nil]; simp
  | cons f fs ih =>
    cases m with
    | zero => exact left_sublist ks n _
    | succ m =>
      obtain ⟨n, rfl⟩ : ∃ k, n = k + 1 := ⟨n - 1, by omega⟩
      rw [left, if_pos (h f (by simp)), List.drop_succ_cons]
      exact ih n m (fun x hx => h x (by simp [hx])) (by omega)

theorem left_few {ks : List Pubkey} (n : Nat) (fs : List FillEvent) (h : fs.length ≤ n) : left ks n fs = fs.filter (fun f => decide (f.maker ∉ ks)) := by
  induction fs generalizing n with
  | nil => rw [left_nil]; rfl
  | cons f fs ih =>
    obtain ⟨n, rfl⟩ : ∃ k, n = k + 1 := ⟨n - 1, by simp at h; omega⟩
    simp only [List.length_cons] at h
    rw [left, List.filter_cons]
    by_cases hm : f.maker ∈ ks
    · rw [if_pos hm, if_neg (by simpa using hm)]; exact ih n (by omega)
    · rw [if_neg hm, if_pos (by simpa using hm), ih (n + 1) (by omega)]

/-! ### the accounts collected by the client -/
namespace Client

theorem foldIter_mono {m : Market} (its : List IterItem) {c c' : St} (h : foldIter m its c = .ok c') : ∀ k ∈ c.accounts, k ∈ c'.accounts := by
  have hstep : ∀ {i : IterItem} {c c' : St} {go : Bool}, iterStep m i c = .ok (go, c') → ∀ k ∈ c.accounts, k ∈ c'.accounts := by
    intro i c c' go h k hk
    unfold iterStep at h
    split at h
    · split at h
      · cases h; simp [hk]
      · cases h; exact hk
    · split at h
      · cases h; exact hk
      · simp only [assertR, bind_ok, pure_ok] at h
        obtain ⟨_, _, h⟩ := h
        split at h
        · cases h; exact hk
        · simp only [bind_ok] at h
          obtain ⟨_, _, _, _, _, _, _, _, _, _, _, _, _, _, h⟩ := h
          split at h
          · cases h; simp [hk]
          · cases h; exact hk
  induction its generalizing c with
  | nil => cases h; exact fun _ h => h
  | cons i its ih =>
    rw [foldIter] at h
    simp only [bind_ok] at h
    obtain ⟨⟨go, c1⟩, h1, h⟩ := h
    intro k hk
    have := hstep h1 k hk
    cases go with
    | false => cases h; exact this
    | true => exact ih h k this

/-- The client names the makers of the first fills, and the owners of all orders removed. -/
theorem fold_accts {env : Env} {price : Int} {m : Market} (its : List IterItem) {s s' : MatchSt} {c c' : St}
    (hw : ∀ i ∈ its, env.order.side.isPriceWithinLimit i.priceLots price = true) (hpo : env.order.isPostOnly = false)
    (hself : ∀ i ∈ its, ¬ selfTrade env i) (hs : Sim m s c) (hd : c.dropped = s.dropped) (h : foldItems env price its s = .ok s')
    (hc : foldIter m its c = .ok c') :
    ∃ fs os, s'.fills = s.fills ++ fs ∧ s'.outs = s.outs ++ os ∧ (∀ f ∈ fs.take (15 - c.processed), f.maker ∈ c'.accounts) ∧
      ∀ o ∈ os, o.owner ∈ c'.accounts := by
  induction its generalizing s c with
  | nil => cases h; exact ⟨[], [], by simp, by simp, by simp, by simp⟩
  | cons i its ih =>
    rw [foldItems] at h
    simp only [bind_ok] at h
    obtain ⟨⟨go, s1⟩, h1, h⟩ := h
    have hwi := hw i (by simp)
    have hsi := hself i (by simp)
    have hw' : ∀ j ∈ its, env.order.side.isPriceWithinLimit j.priceLots price = true := fun j hj => hw j (by simp [hj])
    have hs' : ∀ j ∈ its, ¬ selfTrade env j := fun j hj => hself j (by simp [hj])
    cases matchStep_inv h1 with
    | done hz => cases h; exact ⟨[], [], by simp, by simp, by simp, by simp⟩
    | drop g rb rq hst hdl hp =>
      have hm := processOut_static hp
      simp only [if_true] at h
      rw [foldIter, iterStep, if_pos hst, if_pos (by rw [hd]; exact hdl)] at hc
      simp only [ok_bind, if_true] at hc
      obtain ⟨fs, os, k1, k2, k3, k4⟩ := ih hw' hs' (s := { s with dropped := _, deletes := _, g := g, outs := _ })
        (c := { c with accounts := c.accounts ++ [i.leaf.owner], dropped := c.dropped + 1 }) ⟨hs.base, hs.quote, hs.rebates, hs.limit, by show g.market.makerFee = _; rw [hm, hs.fee], by show g.market.quoteLotSize = _; rw [hm, hs.qls]⟩
        (by show c.dropped + 1 = s.dropped + 1; rw [hd]) h hc
      refine ⟨fs, dropEvent env i s :: os, k1, by rw [k2]; simp, k3, ?_⟩
      intro o ho
      rcases List.mem_cons.mp ho with rfl | ho
      · exact foldIter_mono its hc _ (by simp [dropEvent])
      · exact k4 o ho
    | ignore rb rq hst hdl =>
      simp only [if_true] at h
      rw [foldIter, iterStep, if_pos hst, if_neg (by rw [hd]; exact hdl)] at hc
      simp only [ok_bind, if_true] at hc
      exact ih hw' hs' hs hd h hc
    | stop rb rq hst hwn => rw [hwi] at hwn; cases hwn
    | block rb rq hst _ hr => cases h; exact ⟨[], [], by simp, by simp, by simp, by simp⟩
    | cancelOwn a a' hm hself' _ _ _ => exact absurd hself' hsi
    | fillSelf g p hm hself' _ _ _ => exact absurd hself' hsi
    | fill g p rb hm hself' hq hrb hr hf =>
      simp only [if_true] at h
      obtain ⟨e1, e2⟩ := processFill_static hf.proc
      rw [foldIter, iterStep_fill hs hm hf hq hrb hr] at hc
      simp only [ok_bind, if_true] at hc
      obtain ⟨fs, os, k1, k2, k3, k4⟩ := ih hw' hs' ⟨by show c.remBase - _ = s.remBase - _; rw [hs.base],
        by show c.remQuote - _ = s.remQuote - _; rw [hs.quote], by show c.rebates + _ = s.rebates + _; rw [hs.rebates],
        by show c.limit - 1 = s.limit - 1; rw [hs.limit], by show g.market.makerFee = _; rw [e1, hs.fee],
        by show g.market.quoteLotSize = _; rw [e2, hs.qls]⟩ (by exact hd) h hc
      refine ⟨mkFill env s.g.market.seqNum i (i.leaf.quantity - matchQty i s = 0) (matchQty i s) :: fs, os,
        by rw [k1]; simp [afterFill], by rw [k2]; rfl, ?_, k4⟩
      simp only at k3
      have hmono := foldIter_mono its hc
      intro f hf'
      by_cases hp : c.processed < fillEventRemainingLimit
      · rw [if_pos hp] at k3
        have hp' : c.processed < 15 := hp
        obtain ⟨k, hk⟩ : ∃ k, 15 - c.processed = k + 1 := ⟨14 - c.processed, by omega⟩
        rw [hk, List.take_succ_cons] at hf'
        rcases List.mem_cons.mp hf' with rfl | hf'
        · refine hmono _ ?_
          simp only [if_pos hp]
          simp [mkFill]
        · exact k3 f (by rw [show 15 - (c.processed + 1) = k by omega]; exact hf')
      · rw [if_neg hp] at k3
        have hp' : ¬ c.processed < 15 := hp
        rw [show 15 - c.processed = 0 by omega] at hf'
        cases hf'

/-- At most 20 accounts are named, all of them owners of orders. -/
theorem foldIter_size {m : Market} (its : List IterItem) {c c' : St} (h : foldIter m its c = .ok c')
    (hl : c.accounts.length = c.processed + c.dropped) (hp : c.processed ≤ 15) (hd : c.dropped ≤ 5) :
    c'.accounts.length ≤ 20 ∧ ∀ k ∈ c'.accounts, k ∈ c.accounts ∨ ∃ i ∈ its, i.leaf.owner = k := by
  have hstep : ∀ {i : IterItem} {c c' : St} {go : Bool}, iterStep m i c = .ok (go, c') → c.accounts.length = c.processed + c.dropped →
      c.processed ≤ 15 → c.dropped ≤ 5 → (c'.accounts.length = c'.processed + c'.dropped ∧ c'.processed ≤ 15 ∧ c'.dropped ≤ 5) ∧
      ∀ k ∈ c'.accounts, k ∈ c.accounts ∨ i.leaf.owner = k := by
    intro i c c' go h hl hp hd
    unfold iterStep at h
    split at h
    · split at h
      · rename_i hx
        have hx' : c.dropped < 5 := hx
        cases h
        refine ⟨⟨by simp; omega, hp, by show c.dropped + 1 ≤ 5; omega⟩, fun k hk => ?_⟩
        simp at hk
        rcases hk with hk | rfl
        · exact .inl hk
        · exact .inr rfl
      · cases h; exact ⟨⟨hl, hp, hd⟩, fun k hk => .inl hk⟩
    · split at h
      · cases h; exact ⟨⟨hl, hp, hd⟩, fun k hk => .inl hk⟩
      · simp only [assertR, bind_ok, pure_ok] at h
        obtain ⟨_, _, h⟩ := h
        split at h
        · cases h; exact ⟨⟨hl, hp, hd⟩, fun k hk => .inl hk⟩
        · simp only [bind_ok] at h
          obtain ⟨_, _, _, _, _, _, _, _, _, _, _, _, _, _, h⟩ := h
          split at h
          · rename_i hx
            have hx' : c.processed < 15 := hx
            cases h
            refine ⟨⟨by simp; omega, by show c.processed + 1 ≤ 15; omega, hd⟩, fun k hk => ?_⟩
            simp at hk
            rcases hk with hk | rfl
            · exact .inl hk
            · exact .inr rfl
          · cases h; exact ⟨⟨hl, hp, hd⟩, fun k hk => .inl hk⟩
  induction its generalizing c with
  | nil => cases h; exact ⟨by omega, fun k hk => .inl hk⟩
  | cons i its ih =>
    rw [foldIter] at h
    simp only [bind_ok] at h
    obtain ⟨⟨go, c1⟩, h1, h⟩ := h
    obtain ⟨⟨a1, a2, a3⟩, a4⟩ := hstep h1 hl hp hd
    cases go with
    | false =>
      cases h
      refine ⟨by show c1.accounts.length ≤ 20; omega, fun k hk => ?_⟩
      rcases a4 k hk with h | h
      · exact .inl h
      · exact .inr ⟨i, by simp, h⟩
    | true =>
      obtain ⟨b1, b2⟩ := ih h a1 a2 a3
      refine ⟨b1, fun k hk => ?_⟩
      rcases b2 k hk with h | ⟨j, hj, e⟩
      · rcases a4 k h with h | h
        · exact .inl h
        · exact .inr ⟨i, by simp, h⟩
      · exact .inr ⟨j, by simp [hj], e⟩

theorem iterate_size {book : Book} {g : Ledger} (h : EngineState book g) {side : Side} {oracle : Option Int} {now : Nat} {mb mq : Int}
    {m : Market} {x : IterRes} (hx : iterateBook book side mb mq m oracle now = .ok x) :
    x.accounts.length ≤ 20 ∧ ∀ k ∈ x.accounts, ∃ c l, (side.invert, c, l) ∈ book.resting ∧ l.owner = k := by
  obtain ⟨dB, dQ, hc⟩ := h.core
  obtain ⟨ot, ho⟩ := hc.bookOk.ok side.invert
  obtain ⟨it, hit, hi1, hi2⟩ := bs_iter ho
  have hsi := hc.bookOk.side side.invert
  rw [hsi] at hi1 hi2
  have hlen := ho.lengths
  have lF := (OT.ord_perm side.invert (ot .fixed)).length_eq
  have lP := (OT.ord_perm side.invert (ot .pegged)).length_eq
  have hns : (book.side side.invert).nodes.side = side.invert := hsi
  let env : Env := { order := { side, maxBaseLots := 0, maxQuoteLotsIncludingFees := 0, clientOrderId := 0, timeInForce := 0,
                                selfTradeBehavior := .decrementTake, params := .market },
                     oracle, hasOO := false, owner := 0, nowTs := now, limit := 0, rem := [] }
  have hF := call_fixed (env := env) hc ho
  unfold iterateBook at hx
  simp only [bind_ok, hit, ckI64_ok, pure_ok] at hx
  obtain ⟨q, _, it', e, st, hl, _, _, _, _, hx⟩ := hx
  cases e
  cases hx
  rw [iterLoop_eq (2 * Nodes.fuel) _ ⟨hi1, hi2⟩ hF (by omega) (by unfold Nodes.fuel; omega), hns] at hl
  obtain ⟨k1, k2⟩ := foldIter_size _ hl rfl (by simp) (by simp)
  refine ⟨k1, fun k hk => ?_⟩
  rcases k2 k hk with h | ⟨i, hi, e⟩
  · cases h
  · exact ⟨_, _, (item_spec (env := env) hc ho hi).mem, e⟩

theorem iterate_accts {env : Env} {book book' : Book} {g g' : Ledger} {r : OrderResult} (C : CallRun env book g r book' g')
    (hm : env.order.params = .market) (hlim : env.limit = maximumTakenOrders)
    (hself : ∀ c l, (env.order.side.invert, c, l) ∈ book.resting → env.hasOO = true → l.owner ≠ env.owner) {x : IterRes}
    (hx : iterateBook book env.order.side env.order.maxBaseLots env.order.maxQuoteLotsIncludingFees g.market env.oracle env.nowTs = .ok x) :
    (∀ f ∈ r.fills.take 15, f.maker ∈ x.accounts) ∧ ∀ o ∈ r.outs, o.owner ∈ x.accounts := by
  have hpo : env.order.isPostOnly = false := by unfold Order.isPostOnly; rw [hm]
  obtain ⟨c, k1, hacc⟩ := iterate_fold C hpo hx
  obtain ⟨fs, os, h1, h2, h3, h4⟩ := fold_accts (m := g.market) (callItems env C.ot)
    (fun i hi => call_within C hm hi) hpo
    (fun i hi hs => hself _ _ (item_spec C.core C.P.opp hi).mem hs.1 hs.2.symm)
    ⟨rfl, rfl, rfl, hlim.symm, rfl, rfl⟩ rfl C.P.fold k1
  have ho : r.outs = C.R.s.outs := by
    rcases C.R.post with ⟨_, _, _, _, _, ho, _⟩ | ⟨c, _, _, ht, _⟩
    · exact ho
    · obtain ⟨_, _, hp, _⟩ := C.P.posted c ht
      unfold Order.postTarget at hp
      rw [hm] at hp
      cases hp
  rw [C.R.fills, ho, h1, h2, hacc]
  exact ⟨h3, h4⟩

/-! ### the accounts to crank -/

/-- The loop as a function on the owners of the valid orders. -/
def collect : List Pubkey → List Pubkey → List Pubkey
  | [], acc => acc
  | k :: ks, acc =>
    let acc' := if k ∈ acc then acc else acc ++ [k]
    if acc'.length < 3 then collect ks acc' else acc'

def validOwners (its : List IterItem) : List Pubkey := (its.filter (fun i => decide (i.state = .valid))).map (·.leaf.owner)

theorem crankLoop_eq {t : Nodes} {now : Nat} {oracle : Option Int} (n : Nat) {it : SideIter} {F P : HL} (acc : List Pubkey)
    (h : SIterAt t it F P) (hF : ∀ f ∈ F, FixedOk f.2) (hl : P.length ≤ 1024) (hn : F.length + P.length + 1 ≤ n) :
    crankLoop t now oracle n it acc = .ok (collect (validOwners (items t.side now oracle F P)) acc) := by
  induction n generalizing it F P acc with
  | zero => omega
  | succ n ih =>
    rw [crankLoop, items_eq]
    rcases sideIter_next now oracle h hF hl with ⟨h1, h2⟩ | ⟨item, it', F', P', h1, h2, h3⟩
    · rw [h1, h2]; rfl
    · rw [h1, h2]
      simp only [ok_bind]
      have hlen := nextL_length h1
      obtain ⟨s1, s2⟩ := nextL_subset h1
      have ih' := fun a => ih (it := it') a h3 (fun f hf => hF f (s1.subset hf)) (by have := s2.length_le; omega) (by omega)
      by_cases hv : item.state = .valid
      · rw [if_neg (by simpa using hv)]
        rw [show validOwners (item :: items t.side now oracle F' P') = item.leaf.owner :: validOwners (items t.side now oracle F' P') by
          unfold validOwners; rw [List.filter_cons, if_pos (by simpa using hv)]; rfl, collect]
        obtain ⟨acc', ha⟩ : ∃ acc', (if item.leaf.owner ∈ acc then acc else acc ++ [item.leaf.owner]) = acc' := ⟨_, rfl⟩
        have hcs : crankStep item acc = (decide (¬ acc'.length ≥ 3), acc') := by rw [← ha]; rfl
        rw [hcs, ha]
        simp only
        by_cases hlt : acc'.length < 3
        · rw [if_pos hlt, if_pos (by rw [decide_eq_true_eq]; omega)]
          exact ih' _
        · rw [if_neg hlt, if_neg (by rw [decide_eq_true_eq]; omega)]
          rfl
      · rw [if_pos hv, show validOwners (item :: items t.side now oracle F' P') = validOwners (items t.side now oracle F' P') by
          unfold validOwners; rw [List.filter_cons, if_neg (by simpa using hv)]]
        exact ih' _

theorem collect_spec (O : List Pubkey) (acc : List Pubkey) (hn : acc.Nodup) (hl : acc.length < 3) :
    (collect O acc).Nodup ∧ (collect O acc).length ≤ 3 ∧ (∀ k ∈ collect O acc, k ∈ acc ∨ k ∈ O) ∧ (∀ k ∈ acc, k ∈ collect O acc) ∧
      ((∀ k ∈ O, k ∈ collect O acc) ∨ ∃ A B, O = A ++ B ∧ (collect O acc).length = 3 ∧ (∀ k ∈ collect O acc, k ∈ acc ∨ k ∈ A) ∧
        ∀ k ∈ A, k ∈ collect O acc) := by
  induction O generalizing acc with
  | nil => exact ⟨hn, by rw [collect]; omega, fun k hk => .inl hk, fun k hk => hk, .inl (by simp)⟩
  | cons k O ih =>
    rw [collect]
    obtain ⟨acc', ha⟩ : ∃ acc', (if k ∈ acc then acc else acc ++ [k]) = acc' := ⟨_, rfl⟩
    have hk : k ∈ acc' := by
      rw [← ha]; split
      · assumption
      · simp
    have hsub : ∀ j ∈ acc, j ∈ acc' := by 
      intro j hj; rw [← ha]; split
      · exact hj
      · simp [hj]
    have hsup : ∀ j ∈ acc', j ∈ acc ∨ j = k := by
      intro j hj; rw [← ha] at hj; split at hj
      · exact .inl hj
      · simpa using hj
    have hn' : acc'.Nodup := by
      rw [← ha]; split
      · exact hn
      · rename_i hx
        rw [List.nodup_append]
        exact ⟨hn, by simp, by intro a h1 b h2 e; subst e; simp at h2; subst h2; exact hx h1⟩
    have hl' : acc'.length ≤ 3 := by
      rw [← ha]; split
      · omega
      · simp; omega
    rw [ha]
    by_cases hc : acc'.length < 3
    · rw [if_pos hc]
      obtain ⟨k1, k2, k3, k4, k5⟩ := ih acc' hn' hc
      refine ⟨k1, k2, ?_, fun j hj => k4 j (hsub j hj), ?_⟩
      · intro j hj
        rcases k3 j hj with h | h
        · rcases hsup j h with h | rfl
          · exact .inl h
          · exact .inr (by simp)
        · exact .inr (by simp [h])
      · rcases k5 with h | ⟨A, B, e, h1, h2, h3⟩
        · left
          intro j hj
          rcases List.mem_cons.mp hj with rfl | hj
          · exact k4 _ hk
          · exact h j hj
        · right
          refine ⟨k :: A, B, by rw [e]; rfl, h1, ?_, ?_⟩
          · intro j hj
            rcases h2 j hj with h | h
            · rcases hsup j h with h | rfl
              · exact .inl h
              · exact .inr (by simp)
            · exact .inr (by simp [h])
          · intro j hj
            rcases List.mem_cons.mp hj with rfl | hj
            · exact k4 _ hk
            · exact h3 j hj
    · rw [if_neg hc]
      refine ⟨hn', hl', ?_, hsub, .inr ⟨[k], O, rfl, by omega, ?_, ?_⟩⟩
      · intro j hj
        rcases hsup j hj with h | rfl
        · exact .inl h
        · exact .inr (by simp)
      · intro j hj
        rcases hsup j hj with h | rfl
        · exact .inl h
        · exact .inr (by simp)
      · intro j hj; simp at hj; subst hj; exact hk

/-- A prefix of the owners with at most three different ones is covered. -/
theorem collect_covers {O M ks : List Pubkey} (hp : M <+: O) (hl : ks.length ≤ 3) (hm : ∀ k ∈ M, k ∈ ks) : ∀ k ∈ M, k ∈ collect O [] := by
  obtain ⟨k1, k2, k3, _, k5⟩ := collect_spec O [] (by simp) (by simp)
  intro k hk
  rcases k5 with h | ⟨A, B, e, h1, h2, h3⟩
  · exact h k (hp.subset hk)
  · rw [e] at hp
    rcases List.prefix_or_prefix_of_prefix hp (List.prefix_append A B) with h | h
    · exact h3 k (h.subset hk)
    · have hs : collect O [] ⊆ ks := by
        intro j hj
        rcases h2 j hj with h' | h'
        · cases h'
        · exact hm j (h.subset h')
      have := (List.subperm_of_subset k1 hs).perm_of_length_le (by omega)
      exact this.mem_iff.mpr (hm k hk)

/-- The makers of the fills are, in order, the owners of the first valid orders. -/
theorem fold_makers {env : Env} {price : Int} (its : List IterItem) {s s' : MatchSt}
    (hself : ∀ i ∈ its, ¬ selfTrade env i) (h : foldItems env price its s = .ok s') :
    ∃ fs, s'.fills = s.fills ++ fs ∧ fs.map (·.maker) <+: validOwners its := by
  induction its generalizing s with
  | nil => cases h; exact ⟨[], by simp, List.nil_prefix⟩
  | cons i its ih =>
    rw [foldItems] at h
    simp only [bind_ok] at h
    obtain ⟨⟨go, s1⟩, h1, h⟩ := h
    have hs' : ∀ j ∈ its, ¬ selfTrade env j := fun j hj => hself j (by simp [hj])
    have inv : i.state ≠ .valid → validOwners (i :: its) = validOwners its := by
      intro hv; unfold validOwners; rw [List.filter_cons, if_neg (by simpa using hv)]
    have val : i.state = .valid → validOwners (i :: its) = i.leaf.owner :: validOwners its := by
      intro hv; unfold validOwners; rw [List.filter_cons, if_pos (by simpa using hv)]; rfl
    cases matchStep_inv h1 with
    | done hz => cases h; exact ⟨[], by simp, List.nil_prefix⟩
    | drop g rb rq hst hdl hp =>
      simp only [if_true] at h
      obtain ⟨fs, k1, k2⟩ := ih hs' h
      exact ⟨fs, k1, by rw [inv hst]; exact k2⟩
    | ignore rb rq hst hdl =>
      simp only [if_true] at h
      obtain ⟨fs, k1, k2⟩ := ih hs' h
      exact ⟨fs, k1, by rw [inv hst]; exact k2⟩
    | stop rb rq hst hwn => cases h; exact ⟨[], by simp, List.nil_prefix⟩
    | block rb rq hst _ hr => cases h; exact ⟨[], by simp, List.nil_prefix⟩
    | cancelOwn a a' hm hself' _ _ _ => exact absurd hself' (hself i (by simp))
    | fillSelf g p hm hself' _ _ _ => exact absurd hself' (hself i (by simp))
    | fill g p rb hm hself' hq hrb hr hf =>
      simp only [if_true] at h
      obtain ⟨fs, k1, k2⟩ := ih hs' h
      refine ⟨mkFill env s.g.market.seqNum i (i.leaf.quantity - matchQty i s = 0) (matchQty i s) :: fs, by rw [k1]; simp [afterFill], ?_⟩
      rw [val hm.valid, List.map_cons]
      exact (List.prefix_cons_inj _).mpr k2

/-- The accounts to crank. -/
theorem crank_core {env : Env} {book : Book} {g : Ledger} {dB dQ : Int} {ot : Comp → Option T} (hc : Core g book dB dQ)
    (ho : BSOk (book.side env.order.side.invert) ot) :
    remainingAccountsToCrank book env.order.side env.oracle env.nowTs = .ok (collect (validOwners (callItems env ot)) []) := by
  obtain ⟨it, hit, hi1, hi2⟩ := bs_iter ho
  have hsi := hc.bookOk.side env.order.side.invert
  rw [hsi] at hi1 hi2
  have hlen := ho.lengths
  have lF := (OT.ord_perm env.order.side.invert (ot .fixed)).length_eq
  have lP := (OT.ord_perm env.order.side.invert (ot .pegged)).length_eq
  have hns : (book.side env.order.side.invert).nodes.side = env.order.side.invert := hsi
  have hloop := crankLoop_eq (now := env.nowTs) (oracle := env.oracle) (2 * Nodes.fuel) [] ⟨hi1, hi2⟩
    (call_fixed hc ho) (by omega) (by unfold Nodes.fuel; omega)
  rw [hns] at hloop
  unfold remainingAccountsToCrank
  simp only [hit, ok_bind]
  exact hloop

theorem crank_eq {env : Env} {book book' : Book} {g g' : Ledger} {r : OrderResult} (C : CallRun env book g r book' g') :
    remainingAccountsToCrank book env.order.side env.oracle env.nowTs = .ok (collect (validOwners (callItems env C.ot)) []) :=
  crank_core C.core C.P.opp

theorem crank_list {book : Book} {g : Ledger} (h : EngineState book g) (side : Side) (oracle : Option Int) (now : Nat) :
    ∃ ks, remainingAccountsToCrank book side oracle now = .ok ks ∧ ks.Nodup ∧ ks.length ≤ 3 ∧
      ∀ k ∈ ks, ∃ c l p, (side.invert, c, l) ∈ book.resting ∧ TradableAt now oracle side.invert c l p ∧ l.owner = k := by
  obtain ⟨dB, dQ, hc⟩ := h.core
  obtain ⟨ot, ho⟩ := hc.bookOk.ok side.invert
  let env : Env := { order := { side, maxBaseLots := 0, maxQuoteLotsIncludingFees := 0, clientOrderId := 0, timeInForce := 0,
                                selfTradeBehavior := .decrementTake, params := .market },
                     oracle, hasOO := false, owner := 0, nowTs := now, limit := 0, rem := [] }
  have he := crank_core (env := env) hc ho
  obtain ⟨k1, k2, k3, _, _⟩ := collect_spec (validOwners (callItems env ot)) [] (by simp) (by simp)
  refine ⟨_, he, k1, k2, fun k hk => ?_⟩
  rcases k3 k hk with h | h
  · cases h
  · obtain ⟨i, hi, rfl⟩ := List.mem_map.mp h
    obtain ⟨hi, hv⟩ := List.mem_filter.mp hi
    have hs := item_spec (env := env) hc ho hi
    exact ⟨_, _, _, hs.mem, hs.valid (by simpa using hv), rfl⟩

theorem crank_covers {env : Env} {book book' : Book} {g g' : Ledger} {r : OrderResult} (C : CallRun env book g r book' g')
    (hself : ∀ c l, (env.order.side.invert, c, l) ∈ book.resting → env.hasOO = true → l.owner ≠ env.owner) {ks : List Pubkey}
    (hk : remainingAccountsToCrank book env.order.side env.oracle env.nowTs = .ok ks) (n : Nat) (hn : AtMostMakers 3 (r.fills.take n)) :
    ∀ f ∈ r.fills.take n, f.maker ∈ ks := by
  rw [crank_eq C] at hk
  cases hk
  obtain ⟨fs, h1, h2⟩ := fold_makers (callItems env C.ot) (fun i hi hs => hself _ _ (item_spec C.core C.P.opp hi).mem hs.1 hs.2.symm) C.P.fold
  rw [C.R.fills, h1] at hn ⊢
  obtain ⟨js, h3, h4⟩ := hn
  rw [List.nil_append] at h4 ⊢
  intro f hf
  refine collect_covers (M := (fs.take n).map (·.maker)) ?_ h3 ?_ _ (List.mem_map.mpr ⟨f, hf, rfl⟩)
  · rw [List.map_take]
    exact (List.take_prefix n _).trans h2
  · intro k hk
    obtain ⟨f, hf, rfl⟩ := List.mem_map.mp hk
    exact h4 f hf

end Client
end OB
