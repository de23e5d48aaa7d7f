import Verif.Spec.Others
import Verif.Props.C44_Orders
import Verif.Props.C26_Settle
/-!
C33 — Only the owner or delegate can cancel or place for an account.
-/
namespace OB
open Spec

theorem outsiders_not {s : State} {k : Pubkey} {a : OOA} {op : Op} (ha : s.g.accts.get? k = some a) (ho : Outsiders a op)
    {x : Pubkey} (hx : x ∈ signers op) : ¬ Controls s x k := by
  rintro ⟨b, hb, h⟩
  rw [ha] at hb
  injection hb with hb
  subst hb
  obtain ⟨h1, h2⟩ := ho x hx
  rcases h with h | ⟨h, h'⟩
  · exact h1 h
  · rcases h2 with h2 | h2
    · exact h h2
    · exact h2 h'

/-- An instruction of others places its orders in another name. -/
theorem placer_other {s s' : State} {k : Pubkey} {a : OOA} {op : Op} (h : step s op = .ok s')
    (ha : s.g.accts.get? k = some a) (ho : Outsiders a op) {p : Placer} (hp : placer op = some p)
    (hauth : p.hasOO = true → Controls s p.signer p.owner) : p.owner ≠ k := by
  rintro rfl
  cases hoo : p.hasOO with
  | true => exact outsiders_not ha ho (placer_signer hp) (hauth hoo)
  | false =>
    cases op with
    | placeTakeOrder c x =>
      cases step_run h with
      | take c x o r _ P =>
        have e : p.owner = c.signer := by simp [placer] at hp; rw [← hp]
        have := P.noOO
        rw [← e, ha] at this; cases this
      | idle _ _ h => cases h
      | place _ _ _ _ _ h => cases h
      | edit _ _ _ _ _ _ _ h => cases h
      | consume _ _ _ _ _ h => rcases h with ⟨h, _⟩ | ⟨h, _⟩ <;> cases h
      | cancel _ _ _ _ _ _ _ _ h => rcases h with ⟨h, _⟩ | ⟨h, _⟩ <;> cases h
      | deposit _ _ _ _ _ _ _ _ _ _ h => rcases h with h | h <;> cases h
    | _ => simp [placer] at hp <;> (rw [← hp] at hoo; cases hoo)

/-- If neither the owner nor the delegate of an account signs, then each of its orders stays, is pruned from the expired market, or
meets the orders of others.  (The order is not cancelled, and it is not removed by self-trade prevention.) -/
theorem C33_orders (s s' : State) (op : Op) (hr : Reachable s) (h : step s op = .ok s') (k : Pubkey) (a : OOA)
    (ha : s.g.accts.get? k = some a) (ho : Outsiders a op) (side : Side) (c : Comp) (l : LeafNode)
    (hm : (side, c, l) ∈ s.book.resting) (hk : l.owner = k) : ByOthers s s' op side c l := by
  cases C44_explained hr h hm with
  | same h => exact .same h
  | cancelled signer hs auth gone => exact absurd (hk ▸ auth) (outsiders_not ha ho hs)
  | pruned now limit hop adm exp gone => exact .pruned now limit hop adm exp gone
  | met p hp s1 cs g1 hP o through after =>
    have hne := placer_other h ha ho hp hP.auth
    exact .met p hp s1 cs g1 hP (fun x hx => by rw [(hP.ctx x hx).1, hk]; exact hne) o through after

/-- …and no order is added to the account: each of its orders is an old one, at most smaller. -/
theorem C33_no_orders_added (s s' : State) (op : Op) (hr : Reachable s) (h : step s op = .ok s') (k : Pubkey) (a : OOA)
    (ha : s.g.accts.get? k = some a) (ho : Outsiders a op) (side : Side) (c : Comp) (l' : LeafNode)
    (hm : (side, c, l') ∈ s'.book.resting) (hk : l'.owner = k) :
    ∃ l, (side, c, l) ∈ s.book.resting ∧ l' = { l with quantity := l'.quantity } ∧ l'.quantity ≤ l.quantity := by
  rcases C44_added hr h hm with ⟨l, h1, h2, _, h4⟩ | ⟨p, hp, _, h2, h3, _⟩
  · exact ⟨l, h1, h2, h4⟩
  · rw [h2] at hk
    rw [hk] at h3
    exact absurd h3 (outsiders_not ha ho (placer_signer hp))

/-- …and the account keeps its owner and delegate, is not closed, and its free balances do not decrease, unless the close market
admin settles it on the expired market, to token accounts of the owner. -/
theorem C33_funds (s s' : State) (op : Op) (hr : Reachable s) (h : step s op = .ok s') (k : Pubkey) (a : OOA)
    (ha : s.g.accts.get? k = some a) (ho : Outsiders a op) :
    ∃ a', s'.g.accts.get? k = some a' ∧ a'.owner = a.owner ∧ a'.delegate = a.delegate ∧
      ((a.position.baseFreeNative ≤ a'.position.baseFreeNative ∧ a.position.quoteFreeNative ≤ a'.position.quoteFreeNative) ∨
       (AdminSettles s k op ∧ ∃ c, Settles s s' c a ∧ c.ooKey = k ∧ (s.tokens c.userBase).owner = a.owner ∧
         (s.tokens c.userQuote).owner = a.owner)) := by
  have hi := reachable_Inv hr
  rcases (step_accts hi h).old k a ha with ⟨a', ha', hs⟩ | ⟨_, hop, _⟩
  · refine ⟨a', ha', ?_⟩
    cases hs with
    | kept own del base quote pen up => exact ⟨own, del, .inl ⟨base, quote⟩⟩
    | paid hop own del pen up =>
      exfalso
      have key : ∀ p : Placer, placer op = some p → p.owner = k → p.hasOO = true → False := by
        intro p hp he hoo
        obtain ⟨s1, cs, g1, P⟩ := placement_full hr h hp
        exact placer_other h ha ho hp P.auth he
      cases op <;> simp [Op.payer] at hop <;> exact key _ rfl hop rfl
    | settled c hop hk res =>
      rcases hop with rfl | ⟨admin, now, rfl⟩
      · exfalso
        obtain ⟨b, _, hc, _⟩ := C26_settle hr h
        rw [hk] at hc
        exact outsiders_not ha ho (List.mem_cons_self) hc
      · obtain ⟨b, S, k1, k2, k3, k4, k5⟩ := C26_settle_expired hr h
        have e : b = a := by have := S.before; rw [hk, ha] at this; injection this with this; exact this.symm
        subst e
        refine ⟨by rw [res]; rfl, by rw [res]; rfl, .inr ⟨⟨c, now, by rw [k3], hk, by rw [k3]; exact k4, k5⟩, c, S, hk, k1, k2⟩⟩
    | delegate d hop res =>
      exfalso
      subst hop
      exact (ho a.owner List.mem_cons_self).1 rfl
  · exfalso
    subst hop
    exact (ho a.owner List.mem_cons_self).1 rfl

theorem Spec.Through.smaller {s : Side} {c : Comp} {book : Book} {g : Ledger} {cs : List (Env × OrderResult)} {l : LeafNode}
    {o : Option LeafNode} (h : Through s c book g cs l o) : ∀ l', o = some l' → l' = { l with quantity := l'.quantity } := by
  induction h with
  | done => rintro l' ⟨⟩; rfl
  | leaves => rintro l' ⟨⟩
  | keeps env r cs book book1 g g1 l l1 o h hk rest ih =>
    intro l' e
    have := ih l' e
    cases hk with
    | same => exact this
    | partly f _ _ _ _ => rw [this]

/-- Over a whole sequence of instructions of others: the account keeps its owner and delegate; its free balances do not decrease unless
the admin settles it; its orders are old ones; and each of its orders is still there, perhaps smaller, or left the book in one of the
instructions of the sequence, in one of the ways above. -/
theorem C33_sequence (s s' : State) (ops : List Op) (hr : Reachable s) (h : Runs s ops s') (k : Pubkey) (a : OOA)
    (ha : s.g.accts.get? k = some a) (ho : ∀ op ∈ ops, Outsiders a op) :
    Reachable s' ∧
    (∃ a', s'.g.accts.get? k = some a' ∧ a'.owner = a.owner ∧ a'.delegate = a.delegate ∧
      ((∀ t op, op ∈ ops → ¬ AdminSettles t k op) →
        a.position.baseFreeNative ≤ a'.position.baseFreeNative ∧ a.position.quoteFreeNative ≤ a'.position.quoteFreeNative)) ∧
    (∀ side c l', (side, c, l') ∈ s'.book.resting → l'.owner = k →
      ∃ l, (side, c, l) ∈ s.book.resting ∧ l' = { l with quantity := l'.quantity } ∧ l'.quantity ≤ l.quantity) ∧
    (∀ side c l, (side, c, l) ∈ s.book.resting → l.owner = k →
      (∃ q, (side, c, { l with quantity := q }) ∈ s'.book.resting) ∨
      ∃ pre op t t' q, (pre ++ [op]) <+: ops ∧ Runs s pre t ∧ step t op = .ok t' ∧
        (side, c, { l with quantity := q }) ∈ t.book.resting ∧ Gone t'.book side c l ∧
        ByOthers t t' op side c { l with quantity := q }) := by
  induction h with
  | nil => exact ⟨hr, ⟨a, ha, rfl, rfl, fun _ => ⟨Int.le_refl _, Int.le_refl _⟩⟩, fun side c l' h _ => ⟨l', h, rfl, Int.le_refl _⟩,
      fun side c l h _ => .inl ⟨l.quantity, h⟩⟩
  | @snoc s1 s2 ops op hrun hst ih =>
    obtain ⟨r1, ⟨a1, ha1, o1, d1, f1⟩, n1, g1⟩ := ih (fun op hop => ho op (List.mem_append_left _ hop))
    have ho1 : Outsiders a1 op := by
      intro x hx
      rw [o1, d1]
      exact ho op (List.mem_append_right _ List.mem_cons_self) x hx
    refine ⟨.step _ _ op r1 hst, ?_, ?_, ?_⟩
    · obtain ⟨a2, ha2, o2, d2, f2⟩ := C33_funds s1 s2 op r1 hst k a1 ha1 ho1
      refine ⟨a2, ha2, o2.trans o1, d2.trans d1, fun hn => ?_⟩
      have f1 := f1 (fun t op hop => hn t op (List.mem_append_left _ hop))
      rcases f2 with f2 | ⟨f2, _⟩
      · exact ⟨Int.le_trans f1.1 f2.1, Int.le_trans f1.2 f2.2⟩
      · exact absurd f2 (hn s1 op (List.mem_append_right _ List.mem_cons_self))
    · intro side c l2 hm hk
      obtain ⟨l1, h1, h2, h3⟩ := C33_no_orders_added s1 s2 op r1 hst k a1 ha1 ho1 side c l2 hm hk
      have hk1 : l1.owner = k := by rw [h2] at hk; exact hk
      obtain ⟨l, h4, h5, h6⟩ := n1 side c l1 h1 hk1
      refine ⟨l, h4, ?_, Int.le_trans h3 h6⟩
      rw [h5] at h2
      exact h2
    · intro side c l hm hk
      rcases g1 side c l hm hk with ⟨q, hq⟩ | ⟨pre, op1, t, t', q, hp, rest⟩
      · have hB := C33_orders s1 s2 op r1 hst k a1 ha1 ho1 side c { l with quantity := q } hq hk
        have hB' := hB
        cases hB' with
        | same h => exact .inl ⟨q, h⟩
        | pruned now limit hop adm exp g => exact .inr ⟨ops, op, s1, s2, q, List.prefix_refl _, hrun, hst, hq, g, hB⟩
        | met p hp s3 cs g3 hP others o through after =>
          cases o with
          | some l' =>
            left
            have := through.smaller l' rfl
            refine ⟨l'.quantity, ?_⟩
            have e : l' = { l with quantity := l'.quantity } := this
            rw [← e]
            exact after
          | none => exact .inr ⟨ops, op, s1, s2, q, List.prefix_refl _, hrun, hst, hq, after, hB⟩
      · exact .inr ⟨pre, op1, t, t', q, hp.trans (List.prefix_append _ _), rest⟩

namespace OthersCase
open Scenario

/-! Account 41 of trader 31 while others act: trader 33 fills its ask completely; the admin prunes it and settles it after expiry. -/

theorem fill_runs : stepAnd args ops0 (place 2 .bid 1010 7 6) (fun s s' => decide ((s.g.accts.get? 41).map (·.owner) = some 31 ∧
    (s.g.accts.get? 41).map (·.delegate) = some 0 ∧ s.book.resting.length = 5 ∧ s'.book.resting.length = 3 ∧
    (s.book.resting.filter (fun x => x.2.2.owner = 41)).length = 3 ∧ (s'.book.resting.filter (fun x => x.2.2.owner = 41)).length = 2)) = true := by
  decide +kernel

example : ∃ (s s' : State) (a : OOA), Reachable s ∧ step s (place 2 .bid 1010 7 6) = .ok s' ∧ s.g.accts.get? 41 = some a ∧
    Outsiders a (place 2 .bid 1010 7 6) ∧ (s.book.resting.filter (fun x => x.2.2.owner = 41)).length = 3 ∧
    (s'.book.resting.filter (fun x => x.2.2.owner = 41)).length = 2 := by
  obtain ⟨s, s', h1, h2, h3⟩ := step_spec fill_runs
  rw [decide_eq_true_eq] at h3
  obtain ⟨k1, k2, _, _, k3, k4⟩ := h3
  cases ha : s.g.accts.get? 41 with
  | none => rw [ha] at k1; cases k1
  | some a =>
    rw [ha] at k1 k2
    have k1 : a.owner = 31 := by injection k1
    have k2 : a.delegate = 0 := by injection k2
    refine ⟨s, s', a, h1, h2, ha, ?_, k3, k4⟩
    intro x hx
    have hx : x = 33 := by
      have e : signers (place 2 .bid 1010 7 6) = [33] := by decide
      rw [e] at hx; simpa using hx
    rw [hx, k1, k2]
    decide

/-- Instructions of others after expiry: pruning, delivering and settling. -/
def opsO : List Op := [.pruneOrders 2 41 1005 1, .consumeEvents 0 8 [41, 42],
  .settleFundsExpired 2 { signer := 33, penaltyPayer := 33, ooKey := 41, userBase := 51, userQuote := 61, referrer := none } 1006]

theorem run_runs {s s' : State} {ops : List Op} (h : run s ops = .ok s') : Runs s ops s' := by
  have key : ∀ (s0 s : State) (done : List Op), Runs s0 done s → run s ops = .ok s' → Runs s0 (done ++ ops) s' := by
    clear h
    induction ops with
    | nil => intro s0 s done l h; injection h with h; rw [← h, List.append_nil]; exact l
    | cons op ops ih =>
      intro s0 s done l h
      unfold run at h
      cases h1 : step s op with
      | error e => rw [h1] at h; cases h
      | ok s1 =>
        rw [h1] at h
        have := ih s0 s1 (done ++ [op]) (l.snoc op h1) h
        rwa [List.append_assoc] at this
  exact key s s [] .nil h

theorem prune_runs : okAnd (exec args (ops1 ++ [.setMarketExpired 2 1000])) (fun s => decide ((s.g.accts.get? 41).map (·.owner) = some 31 ∧
    (s.g.accts.get? 41).map (·.delegate) = some 0) && okAnd (run s opsO) (fun s' => decide (
      (s.book.resting.filter (fun x => x.2.2.owner = 41)).length = 3 ∧ (s'.book.resting.filter (fun x => x.2.2.owner = 41)).length = 2 ∧
      tokens s 51 < tokens s' 51))) = true := by
  decide +kernel

example : ∃ (s s' : State) (a : OOA), Reachable s ∧ Runs s opsO s' ∧ s.g.accts.get? 41 = some a ∧ (∀ op ∈ opsO, Outsiders a op) ∧
    (s.book.resting.filter (fun x => x.2.2.owner = 41)).length = 3 ∧ (s'.book.resting.filter (fun x => x.2.2.owner = 41)).length = 2 ∧
    tokens s 51 < tokens s' 51 := by
  obtain ⟨s, h1, h2⟩ := okAnd_spec prune_runs
  rw [Bool.and_eq_true, decide_eq_true_eq] at h2
  obtain ⟨⟨k1, k2⟩, h3⟩ := h2
  obtain ⟨s', h4, h5⟩ := okAnd_spec h3
  rw [decide_eq_true_eq] at h5
  cases ha : s.g.accts.get? 41 with
  | none => rw [ha] at k1; cases k1
  | some a =>
    rw [ha] at k1 k2
    have k1 : a.owner = 31 := by injection k1
    have k2 : a.delegate = 0 := by injection k2
    refine ⟨s, s', a, exec_reachable h1, run_runs h4, ha, ?_, h5⟩
    intro op hop x hx
    rw [k1, k2]
    unfold opsO at hop
    simp only [List.mem_cons, List.not_mem_nil, or_false] at hop
    rcases hop with rfl | rfl | rfl <;> simp [signers, ifGiven] at hx
    · rw [hx]; decide
    · rcases hx with rfl | rfl <;> decide

end OthersCase

end OB
