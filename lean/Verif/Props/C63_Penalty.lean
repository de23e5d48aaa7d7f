import Verif.Proofs.Penalty
import Verif.Props.Scenario
/-!
C63  Penalties for queued events are exact.
-/
namespace OB
open Spec

/-- An instruction that places orders for an account adds one penalty to this account if it leaves more events queued than it found,
and none otherwise; no other account and no lamports are concerned. -/
theorem C63_order (s s' : State) (op : Op) (k : Pubkey) (hr : Reachable s) (hk : orderAccount op = some k) (h : step s op = .ok s') :
    owes s' k = owes s k + (if Grows s s' then 1 else 0) ∧ (∀ j, j ≠ k → owes s' j = owes s j) ∧ s'.lamports = s.lamports := by
  cases penStep hr h with
  | order j hop self other lam =>
    rw [hk] at hop; injection hop with hop; subst hop
    exact ⟨self, other, lam⟩
  | take c a hop => rw [hop] at hk; cases hk
  | settle c hop => rcases hop with rfl | ⟨_, _, rfl⟩ <;> cases hk
  | other h1 => rw [h1] at hk; cases hk

/-- A take order costs its payer 500 lamports if it leaves more events queued than it found, and nothing otherwise. -/
theorem C63_take (s s' : State) (c : TakeCtx) (a : PlaceOrderArgs) (hr : Reachable s) (h : step s (.placeTakeOrder c a) = .ok s') :
    (∀ t, s'.lamports t = s.lamports t + moved t c.penaltyPayer s.marketKey (if Grows s s' then 500 else 0)) ∧
      ∀ k, owes s' k = owes s k := by
  cases penStep hr h with
  | order j hop => cases hop
  | take c' a' hop same lam => injection hop with e1 e2; subst e1; exact ⟨lam, same⟩
  | settle c hop => rcases hop with hop | ⟨_, _, hop⟩ <;> cases hop
  | other _ h2 => cases h2

/-- Settling an account pays its penalties, 500 lamports each, and clears them; the others keep theirs. -/
theorem C63_settle (s s' : State) (op : Op) (c : SettleCtx) (hr : Reachable s)
    (hop : op = .settleFunds c ∨ ∃ admin now, op = .settleFundsExpired admin c now) (h : step s op = .ok s') :
    (∀ t, s'.lamports t = s.lamports t + moved t c.penaltyPayer s.marketKey (500 * owes s c.ooKey)) ∧
      owes s' c.ooKey = 0 ∧ ∀ k, k ≠ c.ooKey → owes s' k = owes s k := by
  cases penStep hr h with
  | order j hop' => rcases hop with rfl | ⟨_, _, rfl⟩ <;> cases hop'
  | take c' a' hop' => rcases hop with rfl | ⟨_, _, rfl⟩ <;> cases hop'
  | settle c' hop' self other _ lam =>
    have : c' = c := by
      rcases hop with rfl | ⟨_, _, rfl⟩ <;> rcases hop' with e | ⟨_, _, e⟩ <;> cases e <;> rfl
    subst this
    exact ⟨fun t => by rw [lam t, Int.mul_comm], self, other⟩
  | other _ h2 => rcases hop with rfl | ⟨_, _, rfl⟩ <;> cases h2

/-- Every other instruction is free of penalties, moves no lamports and queues no events. -/
theorem C63_free (s s' : State) (op : Op) (hr : Reachable s) (h1 : orderAccount op = none) (h2 : lamportPayer op = none)
    (h3 : ∀ k x, op ≠ .externalLamports k x) (h : step s op = .ok s') :
    s'.lamports = s.lamports ∧ (∀ k, owes s' k = owes s k) ∧ ¬ Grows s s' := by
  cases penStep hr h with
  | order j hop => rw [h1] at hop; cases hop
  | take c' a' hop => rw [hop] at h2; cases h2
  | settle c hop => rcases hop with rfl | ⟨_, _, rfl⟩ <;> cases h2
  | other _ _ same lam queue =>
    rcases lam with e | ⟨k, x, e, _⟩
    · exact ⟨e, same, Nat.not_lt.mpr queue⟩
    · exact absurd e (h3 k x)

/-- Over any history: what the market has received in lamports, plus what the accounts still owe it, is 500 lamports for each
instruction that left more events queued than it found. -/
theorem C63_history (s s' : State) (ops : List Op) (n : Nat) (hr : Reachable s) (h : GrowthRun s ops s' n)
    (hg : ∀ op ∈ ops, NoGifts s.marketKey op) :
    (s'.lamports s.marketKey - s.lamports s.marketKey) + (penalties s' - penalties s) = 500 * n := by
  have : Reachable s' ∧ s'.marketKey = s.marketKey ∧
      s'.lamports s.marketKey + penalties s' = s.lamports s.marketKey + penalties s + 500 * n := by
    induction h with
    | nil => exact ⟨hr, rfl, by omega⟩
    | @snoc s1 s2 ops m op h1 hs ih =>
      obtain ⟨r1, k1, e1⟩ := ih (fun o ho => hg o (List.mem_append_left _ ho))
      have e2 := penalties_step r1 hs (by rw [k1]; exact hg op (by simp))
      rw [k1] at e2
      refine ⟨.step _ _ op r1 hs, (step_marketKey (reachable_Inv r1) hs).trans k1, ?_⟩
      rw [e2, e1]
      split <;> push_cast <;> omega
  omega

/-- Runs operations and counts those that left more events queued than they found. -/
def Scenario.growth (s : State) : List Op → R (State × Nat)
  | [] => .ok (s, 0)
  | op :: ops => do
    let (s1, n) ← Scenario.growth s ops
    let s2 ← step s1 op
    .ok (s2, n + if Grows s1 s2 then 1 else 0)

theorem Scenario.growth_run {s s' : State} {ops : List Op} {n : Nat} (h : Scenario.growth s ops = .ok (s', n)) :
    GrowthRun s ops.reverse s' n := by
  induction ops generalizing s' n with
  | nil => cases h; exact .nil
  | cons op ops ih =>
    simp only [Scenario.growth, bind_ok] at h
    obtain ⟨⟨s1, m⟩, h1, s2, h2, h3⟩ := h
    cases h3
    rw [List.reverse_cons]
    exact .snoc op (ih h1) h2

open Scenario in
/-- Trader 33 buys and leaves a fill queued, then buys again without an account; trader 31 places an order that rests; the fills are
consumed; trader 33 settles and pays for the first order.  Two instructions left more events queued than they found. -/
def penaltyOps : List Op :=
  [place 2 .bid 1010 1 7,
   .placeTakeOrder
    { signer := 33, penaltyPayer := 33, admin := 0, userBase := 53, userQuote := 63, now := 1000, oracle := some 1000, rem := [] }
    { limitOrder .bid 1010 1 0 with orderType := .immediateOrCancel },
   place 0 .bid 900 1 8, .consumeEvents 0 8 [41],
   .settleFunds { signer := 33, penaltyPayer := 33, ooKey := 43, userBase := 53, userQuote := 63, referrer := none }]

example : ∃ (s s1 s2 s' : State), Reachable s ∧ GrowthRun s penaltyOps s' 2 ∧ (∀ op ∈ penaltyOps, NoGifts s.marketKey op) ∧
    GrowthRun s (penaltyOps.take 1) s1 1 ∧ owes s1 43 = owes s 43 + 1 ∧ GrowthRun s (penaltyOps.take 2) s2 2 ∧
    s2.lamports 33 = s.lamports 33 - 500 ∧ owes s' 43 = 0 ∧ s'.lamports s.marketKey = s.lamports s.marketKey + 1000 := by
  obtain ⟨s, h1, h2⟩ := Scenario.exec_spec (a := Scenario.args) (ops := Scenario.ops0) (p := fun s =>
    decide (s.marketKey = 100) &&
    Scenario.okAnd (Scenario.growth s (penaltyOps.take 1).reverse) (fun x => decide (x.2 = 1 ∧ owes x.1 43 = owes s 43 + 1) &&
    Scenario.okAnd (Scenario.growth s (penaltyOps.take 2).reverse) (fun y => decide (y.2 = 2 ∧ y.1.lamports 33 = s.lamports 33 - 500) &&
    Scenario.okAnd (Scenario.growth s penaltyOps.reverse) (fun z => decide (z.2 = 2 ∧ owes z.1 43 = 0 ∧
      z.1.lamports s.marketKey = s.lamports s.marketKey + 1000))))) (by decide +kernel)
  rw [Bool.and_eq_true] at h2
  obtain ⟨⟨s1, n1⟩, a1, a2⟩ := Scenario.okAnd_spec h2.2
  rw [Bool.and_eq_true] at a2
  obtain ⟨⟨s2, n2⟩, b1, b2⟩ := Scenario.okAnd_spec a2.2
  rw [Bool.and_eq_true] at b2
  obtain ⟨⟨s3, n3⟩, c1, c2⟩ := Scenario.okAnd_spec b2.2
  have k := of_decide_eq_true h2.1
  obtain ⟨rfl, a3⟩ := of_decide_eq_true a2.1
  obtain ⟨rfl, b3⟩ := of_decide_eq_true b2.1
  obtain ⟨rfl, c3, c4⟩ := of_decide_eq_true c2
  refine ⟨s, s1, s2, s3, h1, Scenario.growth_run c1, ?_, Scenario.growth_run a1, a3, Scenario.growth_run b1, b3, c3, c4⟩
  rw [k]
  intro op hop
  simp only [penaltyOps, List.mem_cons, List.not_mem_nil, or_false] at hop
  rcases hop with rfl | rfl | rfl | rfl | rfl <;> refine ⟨by decide, fun x => ?_⟩ <;> intro e <;> cases e

end OB
