import Verif.Proofs.Commute
import Verif.Props.C74_Layout
import Verif.Props.Scenario
/-!
C90: a trader's cancellation does the same whether it comes before or after instructions of others that place no orders.
-/
namespace OB
open OB.Spec

/-- **C90**: A cancellation for one account and an instruction that moves the money of another account, creates or closes it, changes its
delegate, sweeps the fees or transfers tokens outside the program: both orders succeed or neither does, and they end in the same state,
to the byte.  (No assumption on the state.) -/
theorem C90_money {k : Pubkey} {x y : Op} (hx : CancelsFor k x) (hy : ManagesNone y ∨ ∃ j, j ≠ k ∧ ManagesFor j y) {s s' : State} :
    Then x y s s' ↔ Then y x s s' := cancel_manage hx hy

/-- **C90**: Cancellations for two different accounts: if one order succeeds, so does the other, and the states look the same: same accounts,
same money, same orders.  (Only where the book stores its orders may differ.) -/
theorem C90_cancels {k j : Pubkey} (hkj : k ≠ j) {x y : Op} (hx : CancelsFor k x) (hy : CancelsFor j y) {s s' : State} (hr : Reachable s)
    (h : Then x y s s') : ∃ s'', Then y x s s'' ∧ SameView s' s'' := cancel_cancel hkj hx hy hr h

/-- **C90**: Any number of such instructions of others: a cancellation that succeeds after them would have succeeded before them, they would
have succeeded after it, and the outcome is the same. -/
theorem C90_ahead {k : Pubkey} {x : Op} (hx : CancelsFor k x) {ops : List Op} (ho : ∀ y ∈ ops, PlacesNothingFor k y) {s s' : State}
    (hr : Reachable s) (h : Runs s (ops ++ [x]) s') : ∃ s'', Runs s (x :: ops) s'' ∧ SameView s' s'' := runs_ahead hx ho hr h

/-- And conversely: a cancellation that succeeds at once would also have succeeded later. -/
theorem C90_behind {k : Pubkey} {x : Op} (hx : CancelsFor k x) {ops : List Op} (ho : ∀ y ∈ ops, PlacesNothingFor k y) {s s' : State}
    (hr : Reachable s) (h : Runs s (x :: ops) s') : ∃ s'', Runs s (ops ++ [x]) s'' ∧ SameView s' s'' := runs_behind hx ho hr h

namespace CommuteCase
open Scenario

def cancel0 : Op := .cancelAll 31 41 none 10
def cancel1 : Op := .cancelByClientId 32 42 4
def settle1 : Op :=
  .settleFunds { signer := 32, penaltyPayer := 32, ooKey := 42, userBase := 52, userQuote := 62, referrer := none }
def settle0 : Op :=
  .settleFunds { signer := 31, penaltyPayer := 31, ooKey := 41, userBase := 51, userQuote := 61, referrer := none }

/-- Non-vacuity: three orders of trader 31 are cancelled, one of trader 32, who is then paid. -/
example : ∃ s s' : State, Reachable s ∧ Runs s ([cancel1, settle1, .deposit 33 43 53 63 1000 700 900] ++ [cancel0]) s' ∧
    decide (s.book.resting.length = 5 ∧ s'.book.resting.length = 1 ∧ s.tokens 52 ≠ s'.tokens 52 ∧ s.tokens 53 ≠ s'.tokens 53) = true := by
  obtain ⟨s, hr, h⟩ := exec_spec (a := args) (ops := ops0) (p := fun s => okAnd (step s cancel1) fun s1 => okAnd (step s1 settle1) fun s2 =>
    okAnd (step s2 (.deposit 33 43 53 63 1000 700 900)) fun s3 => okAnd (step s3 cancel0) fun s' =>
      decide (s.book.resting.length = 5 ∧ s'.book.resting.length = 1 ∧ s.tokens 52 ≠ s'.tokens 52 ∧ s.tokens 53 ≠ s'.tokens 53)) (by decide +kernel)
  obtain ⟨s1, h1, h⟩ := okAnd_spec h
  obtain ⟨s2, h2, h⟩ := okAnd_spec h
  obtain ⟨s3, h3, h⟩ := okAnd_spec h
  obtain ⟨s4, h4, h⟩ := okAnd_spec h
  exact ⟨s, s4, hr, .snoc (ops := [cancel1, settle1, .deposit 33 43 53 63 1000 700 900]) _
    (.snoc (ops := [cancel1, settle1]) _ (.snoc (ops := [cancel1]) _ (.snoc (ops := []) _ .nil h1) h2) h3) h4, h⟩

example : ∀ y ∈ [cancel1, settle1, .deposit 33 43 53 63 1000 700 900], PlacesNothingFor 41 y := by
  intro y hy
  simp only [List.mem_cons, List.not_mem_nil, or_false] at hy
  rcases hy with rfl | rfl | rfl
  · exact .cancel (j := 42) (by decide) (.client 32 4)
  · exact .manage (.inr ⟨42, by decide, .settle _ rfl⟩)
  · exact .manage (.inr ⟨43, by decide, .deposit 33 53 63 1000 700 900⟩)

/-- Both conditions matter.  The instructions have to be another's: who settles before they cancel is paid less than who settles after. -/
theorem own : ∃ s s' s'' : State, Reachable s ∧ Then cancel0 settle0 s s' ∧ Then settle0 cancel0 s s'' ∧
    (s''.tokens 51).amount < (s'.tokens 51).amount := by
  obtain ⟨s, hr, h⟩ := exec_spec (a := args) (ops := ops0) (p := fun s => okAnd (step s cancel0) fun s1 => okAnd (step s1 settle0) fun s' =>
    okAnd (step s settle0) fun t1 => okAnd (step t1 cancel0) fun s'' => decide ((s''.tokens 51).amount < (s'.tokens 51).amount)) (by decide +kernel)
  obtain ⟨s1, h1, h⟩ := okAnd_spec h
  obtain ⟨s', h2, h⟩ := okAnd_spec h
  obtain ⟨t1, h3, h⟩ := okAnd_spec h
  obtain ⟨s'', h4, h⟩ := okAnd_spec h
  exact ⟨s, s', s'', hr, ⟨s1, h1, h2⟩, ⟨t1, h3, h4⟩, of_decide_eq_true h⟩

/-- And they must place nothing: an order of trader 33 trades with trader 31 if it comes first, and rests if the cancellation does. -/
theorem placing : ∃ s s' s'' : State, Reachable s ∧ Then cancel0 (place 2 .bid 1010 4 6) s s' ∧ Then (place 2 .bid 1010 4 6) cancel0 s s'' ∧
    s''.g.heap.events.length ≠ s'.g.heap.events.length ∧ ¬ SameView s' s'' := by
  obtain ⟨s, hr, h⟩ := exec_spec (a := args) (ops := ops0) (p := fun s => okAnd (step s cancel0) fun s1 => okAnd (step s1 (place 2 .bid 1010 4 6)) fun s' =>
    okAnd (step s (place 2 .bid 1010 4 6)) fun t1 => okAnd (step t1 cancel0) fun s'' => decide (s''.g.heap.events.length ≠ s'.g.heap.events.length)) (by decide +kernel)
  obtain ⟨s1, h1, h⟩ := okAnd_spec h
  obtain ⟨s', h2, h⟩ := okAnd_spec h
  obtain ⟨t1, h3, h⟩ := okAnd_spec h
  obtain ⟨s'', h4, h⟩ := okAnd_spec h
  have h := of_decide_eq_true h
  exact ⟨s, s', s'', hr, ⟨s1, h1, h2⟩, ⟨t1, h3, h4⟩, h, fun v => h (by rw [v.ledger])⟩

end CommuteCase

/-- **C90**: The conditions cannot be dropped: not for instructions of the same trader, and not for instructions that place orders. -/
theorem C90_conditions :
    (∃ x y s s' s'', CancelsFor 41 x ∧ ManagesFor 41 y ∧ Reachable s ∧ Then x y s s' ∧ Then y x s s'' ∧
      (s''.tokens 51).amount < (s'.tokens 51).amount) ∧
    ∃ x c a s s' s'', CancelsFor 41 x ∧ c.ooKey ≠ 41 ∧ Reachable s ∧ Then x (.placeOrder c a) s s' ∧ Then (.placeOrder c a) x s s'' ∧
      ¬ SameView s' s'' := by
  obtain ⟨s, s', s'', h1, h2, h3, h4⟩ := CommuteCase.own
  obtain ⟨t, t', t'', k1, k2, k3, _, k4⟩ := CommuteCase.placing
  exact ⟨⟨_, _, s, s', s'', .all 31 none 10, .settle _ rfl, h1, h2, h3, h4⟩, _, _, _, t, t', t'', .all 31 none 10, by decide, k1, k2, k3, k4⟩

end OB
