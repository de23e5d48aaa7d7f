import Verif.Proofs.StakeWorth
import Verif.Props.Scenario
/-!
C69  A group of accounts gains only from trades with others; trading within the group is worth nothing.

`groupBase`, `groupQuote` (Spec/Group) count what the accounts of a group have on the books of the market together: free, locked, and
in trades not yet delivered.
-/
namespace OB
open Spec

/-- What the sums mean: every account has at least nothing, and at least the quote that is due to it (which C46 proves it can take
out); the rest is maker fees locked in excess and referrer rebates. -/
theorem C69_worth {s : State} (hr : Reachable s) {k : Pubkey} {a : OOA} (ha : s.g.accts.get? k = some a) :
    0 ≤ dueBase s k a ∧ 0 ≤ dueQuote s k a ∧ dueQuote s k a ≤ stakeQuote s k a :=
  worth_bounds (reachable_Inv hr) ha

/-- Every instruction has trades: those of its calls of the matching engine. -/
theorem C69_trades {s s' : State} {op : Op} (hr : Reachable s) (h : step s op = .ok s') : ∃ ts, TradesIn s op s' ts := by
  unfold TradesIn
  cases hp : placer op with
  | none => exact ⟨[], rfl⟩
  | some p =>
    obtain ⟨s1, cs, g1, P, hs⟩ := placement_serves hr h hp
    exact ⟨tradesOf cs, s1, cs, g1, P, hs, rfl⟩

/-- One instruction.  Whatever group of accounts is looked at: what it has on the books changes by the tokens it pays in or takes out
and by its trades with others, whether the group is maker or taker.  Trades within the group, deliveries, cancellations, evictions,
replaced orders, pruning, creating and closing accounts, and everything that others do change nothing.  (If an account is settled to a
vault of the market, what it loses stays in the vault and belongs to nobody.) -/
theorem C69_step {s s' : State} {op : Op} {ts : List FillEvent} (hr : Reachable s) (h : step s op = .ok s') (ht : TradesIn s op s' ts)
    (K : Pubkey → Bool) :
    groupBase K s' ≤ groupBase K s + broughtBase K ⟨s, op, s', ts⟩ + wonBase K ⟨s, op, s', ts⟩ ∧
    groupQuote K s' ≤ groupQuote K s + broughtQuote K ⟨s, op, s', ts⟩ + wonQuote K ⟨s, op, s', ts⟩ ∧
    (¬ intoVault s op →
      groupBase K s' = groupBase K s + broughtBase K ⟨s, op, s', ts⟩ + wonBase K ⟨s, op, s', ts⟩ ∧
      groupQuote K s' = groupQuote K s + broughtQuote K ⟨s, op, s', ts⟩ + wonQuote K ⟨s, op, s', ts⟩) := by
  obtain ⟨hB, hQ⟩ := step_group hr h ht K
  exact ⟨hB.1, hQ.1, fun hn => ⟨hB.2 hn, hQ.2 hn⟩⟩

/-- The same along any execution. -/
theorem C69_run {s s' : State} {l : List Done} (hr : Reachable s) (h : Ran s l s') (K : Pubkey → Bool) :
    groupBase K s' ≤ groupBase K s + sumDone l (broughtBase K) + sumDone l (wonBase K) ∧
    groupQuote K s' ≤ groupQuote K s + sumDone l (broughtQuote K) + sumDone l (wonQuote K) ∧
    ((∀ d ∈ l, ¬ intoVault d.before d.op) →
      groupBase K s' = groupBase K s + sumDone l (broughtBase K) + sumDone l (wonBase K) ∧
      groupQuote K s' = groupQuote K s + sumDone l (broughtQuote K) + sumDone l (wonQuote K)) := by
  induction h with
  | nil s => simp [sumDone]
  | cons d l s' hst ht hs ih =>
    obtain ⟨s0, op, s1, ts⟩ := d
    simp only at hst ht hs hr ih ⊢
    obtain ⟨i1, i2, i3⟩ := ih (.step _ _ _ hr hst)
    obtain ⟨j1, j2, j3⟩ := C69_step hr hst ht K
    unfold sumDone at *
    simp only [List.map_cons, List.sum_cons]
    refine ⟨by omega, by omega, fun hn => ?_⟩
    obtain ⟨i4, i5⟩ := i3 (fun x hx => hn x (List.mem_cons_of_mem _ hx))
    obtain ⟨j4, j5⟩ := j3 (hn _ (List.mem_cons_self ..))
    exact ⟨by omega, by omega⟩

/-- No profit from trading with oneself: a group whose trades in an execution are all among its own accounts has at most what it had
and paid in. -/
theorem C69_no_profit {s s' : State} {l : List Done} (hr : Reachable s) (h : Ran s l s') (K : Pubkey → Bool)
    (hK : ∀ d ∈ l, ∀ f ∈ d.trades, crosses K (byGroup K d.op) f = false) :
    groupBase K s' ≤ groupBase K s + sumDone l (broughtBase K) ∧ groupQuote K s' ≤ groupQuote K s + sumDone l (broughtQuote K) := by
  obtain ⟨h1, h2, _⟩ := C69_run hr h K
  have hz : ∀ d ∈ l, wonBase K d = 0 ∧ wonQuote K d = 0 := fun d hd => by
    unfold wonBase wonQuote
    rw [List.filter_eq_nil_iff.mpr (fun f hf hc => by rw [hK d hd f hf] at hc; cases hc)]
    exact ⟨rfl, rfl⟩
  have zeros : ∀ l : List Done, (l.map (fun _ => (0 : Int))).sum = 0 := by
    intro l
    induction l with
    | nil => rfl
    | cons d l ih => rw [List.map_cons, List.sum_cons, ih]; rfl
  have z1 : sumDone l (wonBase K) = 0 := by
    unfold sumDone
    rw [List.map_congr_left (fun d hd => (hz d hd).1)]
    exact zeros l
  have z2 : sumDone l (wonQuote K) = 0 := by
    unfold sumDone
    rw [List.map_congr_left (fun d hd => (hz d hd).2)]
    exact zeros l
  omega

/-- What a group takes out of the vaults, beyond what it pays in, is at most what it had on the books and what it won from others. -/
theorem C69_taken_out {s s' : State} {l : List Done} (hr : Reachable s) (h : Ran s l s') (K : Pubkey → Bool) :
    -sumDone l (broughtBase K) ≤ groupBase K s + sumDone l (wonBase K) ∧ -sumDone l (broughtQuote K) ≤ groupQuote K s + sumDone l (wonQuote K) := by
  obtain ⟨h1, h2, h0⟩ := C69_run hr h K
  have hr' : Reachable s' := by
    clear h1 h2 h0
    induction h with
    | nil => exact hr
    | cons d l s' hst _ _ ih => exact ih (.step _ _ _ hr hst)
  have hi' := reachable_Inv hr'
  have sum_nonneg : ∀ (A : Accts) (v : Pubkey → OOA → Int), (∀ x ∈ A, 0 ≤ v x.1 x.2) →
      0 ≤ ((A.filter (fun x => K x.1)).map (fun x => v x.1 x.2)).sum := by
    intro A v hv
    induction A with
    | nil => exact Int.le_refl 0
    | cons x A ih =>
      have a1 := hv x (by simp)
      have a2 := ih (fun y hy => hv y (List.mem_cons_of_mem _ hy))
      rw [List.filter_cons]
      split
      · rw [List.map_cons, List.sum_cons]; omega
      · exact a2
  have hget : ∀ x ∈ s'.g.accts, s'.g.accts.get? x.1 = some x.2 := fun x hx => acct_get (keys_once hi') hx
  have p1 : 0 ≤ groupBase K s' := sum_nonneg _ (dueBase s') (fun x hx => (C69_worth hr' (hget x hx)).1)
  have p2 : 0 ≤ groupQuote K s' := sum_nonneg _ (stakeQuote s') (fun x hx => by
    obtain ⟨_, c1, c2⟩ := C69_worth hr' (hget x hx)
    omega)
  omega

/-! The hypotheses are met. -/

namespace GroupCase
open Scenario

/-- Every execution of the model has its list of trades. -/
theorem ran {s s' : State} {ops : List Op} (hr : Reachable s) (h : run s ops = .ok s') : ∃ l, l.map Done.op = ops ∧ Ran s l s' := by
  induction ops generalizing s with
  | nil => injection h with h; subst h; exact ⟨[], rfl, .nil _⟩
  | cons op ops ih =>
    unfold run at h
    cases h1 : step s op with
    | error e => rw [h1] at h; cases h
    | ok s1 =>
      rw [h1] at h
      obtain ⟨ts, ht⟩ := C69_trades hr h1
      obtain ⟨l, e, hl⟩ := ih (.step _ _ _ hr h1) h
      exact ⟨⟨s, op, s1, ts⟩ :: l, by rw [List.map_cons, e], .cons ⟨s, op, s1, ts⟩ l s' h1 ht hl⟩

theorem ran_trades {s s' : State} {l : List Done} (h : Ran s l s') : ∀ d ∈ l, TradesIn d.before d.op d.after d.trades := by
  induction h with
  | nil => intro d hd; cases hd
  | cons d l s' _ ht _ ih =>
    intro x hx
    rcases List.mem_cons.mp hx with e | hx
    · rw [e]; exact ht
    · exact ih x hx

end GroupCase

/-- Trader 33 buys 2 lots at 1007 from account 42 and 2 lots at 1010 from account 41.  The group of 42 and 43 wins 200 base for 20200
quote from account 41; its trade of 2 lots within the group does not count.  The group of all three wins nothing. -/
example : ∃ s s' : State, Reachable s ∧ step s (Scenario.place 2 .bid 1010 4 6) = .ok s' ∧
    ∃ ts, TradesIn s (Scenario.place 2 .bid 1010 4 6) s' ts ∧
      wonBase (fun k => k = 42 || k = 43) ⟨s, Scenario.place 2 .bid 1010 4 6, s', ts⟩ = 200 ∧
      wonQuote (fun k => k = 42 || k = 43) ⟨s, Scenario.place 2 .bid 1010 4 6, s', ts⟩ = -20200 ∧
      wonBase (fun _ => true) ⟨s, Scenario.place 2 .bid 1010 4 6, s', ts⟩ = 0 ∧
      wonQuote (fun _ => true) ⟨s, Scenario.place 2 .bid 1010 4 6, s', ts⟩ = 0 ∧
      broughtQuote (fun k => k = 42 || k = 43) ⟨s, Scenario.place 2 .bid 1010 4 6, s', ts⟩ = 40340 + 17 := by
  obtain ⟨s, s', h1, h2, h3⟩ := Scenario.step_spec (a := Scenario.args) (ops := Scenario.ops0) (op := Scenario.place 2 .bid 1010 4 6)
    (p := fun s s' => decide (
      groupBase (fun k => k = 42 || k = 43) s' = groupBase (fun k => k = 42 || k = 43) s +
        broughtBase (fun k => k = 42 || k = 43) ⟨s, Scenario.place 2 .bid 1010 4 6, s', []⟩ + 200 ∧
      groupQuote (fun k => k = 42 || k = 43) s' = groupQuote (fun k => k = 42 || k = 43) s +
        broughtQuote (fun k => k = 42 || k = 43) ⟨s, Scenario.place 2 .bid 1010 4 6, s', []⟩ - 20200 ∧
      groupBase (fun _ => true) s' = groupBase (fun _ => true) s + broughtBase (fun _ => true) ⟨s, Scenario.place 2 .bid 1010 4 6, s', []⟩ ∧
      groupQuote (fun _ => true) s' = groupQuote (fun _ => true) s +
        broughtQuote (fun _ => true) ⟨s, Scenario.place 2 .bid 1010 4 6, s', []⟩ ∧
      broughtQuote (fun k => k = 42 || k = 43) ⟨s, Scenario.place 2 .bid 1010 4 6, s', []⟩ = 40340 + 17)) (by decide +kernel)
  obtain ⟨g1, g2, g3, g4, g5⟩ := of_decide_eq_true h3
  obtain ⟨ts, ht⟩ := C69_trades h1 h2
  obtain ⟨_, _, c1⟩ := C69_step h1 h2 ht (fun k => k = 42 || k = 43)
  obtain ⟨_, _, c2⟩ := C69_step h1 h2 ht (fun _ => true)
  obtain ⟨c3, c4⟩ := c1 id
  obtain ⟨c5, c6⟩ := c2 id
  have e1 : broughtBase (fun k => k = 42 || k = 43) ⟨s, Scenario.place 2 .bid 1010 4 6, s', ts⟩ =
    broughtBase (fun k => k = 42 || k = 43) ⟨s, Scenario.place 2 .bid 1010 4 6, s', []⟩ := rfl
  have e2 : broughtQuote (fun k => k = 42 || k = 43) ⟨s, Scenario.place 2 .bid 1010 4 6, s', ts⟩ =
    broughtQuote (fun k => k = 42 || k = 43) ⟨s, Scenario.place 2 .bid 1010 4 6, s', []⟩ := rfl
  have e3 : broughtBase (fun _ => true) ⟨s, Scenario.place 2 .bid 1010 4 6, s', ts⟩ =
    broughtBase (fun _ => true) ⟨s, Scenario.place 2 .bid 1010 4 6, s', []⟩ := rfl
  have e4 : broughtQuote (fun _ => true) ⟨s, Scenario.place 2 .bid 1010 4 6, s', ts⟩ =
    broughtQuote (fun _ => true) ⟨s, Scenario.place 2 .bid 1010 4 6, s', []⟩ := rfl
  exact ⟨s, s', h1, h2, ts, ht, by omega, by omega, by omega, by omega, by omega⟩

/-- The whole market as a group: in the ten instructions of the scenario, none of which is a take order, no trade is with others. -/
example : ∃ (s s' : State) (l : List Done), Reachable s ∧ Ran s l s' ∧ l.length = 10 ∧
    (∀ d ∈ l, ∀ f ∈ d.trades, crosses (fun _ => true) (byGroup (fun _ => true) d.op) f = false) ∧
    groupBase (fun _ => true) s' = 5500 ∧ groupQuote (fun _ => true) s' = 540357 := by
  have h : Scenario.okAnd (Scenario.start Scenario.args) (fun s => Scenario.okAnd (Scenario.run s Scenario.ops1) (fun s' =>
    decide (groupBase (fun _ => true) s' = 5500 ∧ groupQuote (fun _ => true) s' = 540357))) = true := by decide +kernel
  obtain ⟨s, h1, h⟩ := Scenario.okAnd_spec h
  obtain ⟨s', h2, h⟩ := Scenario.okAnd_spec h
  have hr := Scenario.start_reachable h1
  obtain ⟨l, e, hl⟩ := GroupCase.ran hr h2
  refine ⟨s, s', l, hr, hl, ?_, ?_, of_decide_eq_true h⟩
  · have := congrArg List.length e
    rw [List.length_map] at this
    rw [this]; rfl
  · intro d hd f hf
    have hall : Scenario.ops1.all (fun op => (actsFor op).isSome || (placer op).isNone) = true := by decide
    have hop : d.op ∈ Scenario.ops1 := by rw [← e]; exact List.mem_map_of_mem hd
    have h3 := List.all_eq_true.mp hall _ hop
    have ht := GroupCase.ran_trades hl d hd
    unfold TradesIn at ht
    cases ha : actsFor d.op with
    | some k =>
      have : byGroup (fun _ => true) d.op = true := by unfold byGroup; rw [ha]
      rw [this]; rfl
    | none =>
      rw [ha] at h3
      cases hp : placer d.op with
      | some p => rw [hp] at h3; cases h3
      | none => rw [hp] at ht; simp only at ht; rw [ht] at hf; cases hf

end OB
